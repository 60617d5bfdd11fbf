{"id": "C01", "title": "Every 64-bit value word has exactly one kind", "statement": "Every value is one 64-bit word. For every word, the type predicates (number, character, array, function, 1-modifier, 2-modifier, namespace, other heap object, internal tag) never overlap, a word is classified as a heap value exactly when its top 13 bits are the heap tag and its payload is non-zero, and it is a number exactly when it is an IEEE double that is not one of the tagged NaN patterns. The optimised subtract-and-compare tests give the same answer as the documented bit tests.", "quantifier": "all 2^64 words", "why_tests_cant": "2^64 words cannot be enumerated; the fast tests differ from the documented ones only at boundary words if they are wrong", "anchors": ["src/h.h: isVal, isF64, isC32, isArr, isFun, isMd1, isMd2, isMd, isNsp, isObj, isCallable, VAL_TAG"]}
{"id": "C02", "title": "UTF-8 decoding never reads or writes out of bounds and accepts exactly well-framed input", "statement": "Decoding a byte string of any content reads only bytes inside the string and writes exactly as many characters as were counted; malformed framing (bad leading byte or truncated final character) is reported as an error, never decoded.", "quantifier": "all byte strings, including malformed ones", "why_tests_cant": "malformed inputs are unbounded in length and shape", "anchors": ["src/utils/utf.c: utf8lenb, utf8_p, utf8Decode"]}
{"id": "C03", "title": "UTF-8 encode then decode returns the same text", "statement": "Encoding any character list whose code points are valid and decoding the bytes returns the same list; the encoder writes exactly the number of bytes its size pre-computation reports, and ASCII text encodes to itself.", "quantifier": "all lists of code points up to U+10FFFF", "why_tests_cant": "the list length and content are unbounded; boundary code points interact with buffer size computation", "anchors": ["src/utils/utf.c: utf8_w, utf8lenB, toUTF8, utf8Decode"]}
{"id": "C04", "title": "The interning hash table behaves as a finite map", "statement": "After any sequence of insertions and lookups, with any hash function, a lookup returns the value most recently inserted for that key and reports absence for a key never inserted; growing the table changes no answer.", "quantifier": "all operation histories, all keys, all hash functions (including all-colliding ones)", "why_tests_cant": "collisions, probing wrap-around and growth depend on the history and the hash values", "anchors": ["src/utils/hashmapTemplate.h: find, has, getD, getQ, qins, dbl, mk, ins, swap"]}
{"id": "C05", "title": "•HashMap behaves as an insertion-ordered map", "statement": "After any sequence of Set, Get, Has, Delete, Count, Keys and Values calls, results are those of a map that remembers insertion order: Get returns the last value set, setting an existing key keeps its position, Delete removes the key, Keys and Values list live entries in insertion order, Count is their number.", "quantifier": "all operation histories and all hash functions that agree on equal keys", "why_tests_cant": "displacement, deletion back-shifts, resizing and compaction interact only over long histories with adversarial hashes", "anchors": ["src/builtins/search.c: hashmap_lookup, hashmap_set, hashmap_delete, hashmap_resize, hashmap_compact, hashmap_keys_or_vals, hashmap_count, hashmap_build", "src/builtins/sysfn.c: •HashMap"]}
{"id": "C06", "title": "•HashMap never touches memory outside its table", "statement": "Every probe, shift and re-placement performed by •HashMap operations, including resizing, stays inside the allocated slot array, and every search loop terminates at an empty slot.", "quantifier": "all operation histories and hash functions", "why_tests_cant": "the overflow area has only 32 slots and out-of-bounds needs particular hash clusters", "anchors": ["src/builtins/search.c: HASHMAP_FIND, HASHMAP_INSERT, hashmap_resize, hashmap_delete"]}
{"id": "C07", "title": "Live allocations never overlap", "statement": "For every sequence of allocations and frees (of live blocks), each block handed out lies inside memory obtained from the system, is large enough for the request, and is disjoint from every other live block.", "quantifier": "all allocate/free histories and request sizes", "why_tests_cant": "overlap needs a particular split/free/merge history", "anchors": ["src/opt/mm_buddyTemplate.c", "src/opt/mm_buddyTemplate.h", "src/opt/mm_2buddy.h: mm_alloc, mm_free"]}
{"id": "C08", "title": "Merging free blocks loses and duplicates no memory", "statement": "Coalescing returns freed buddies into larger blocks such that the total free memory is unchanged, the free blocks remain disjoint from each other and from live blocks, and the reported heap usage equals the sum of the live block sizes.", "quantifier": "all heaps reachable by any allocate/free/merge history", "why_tests_cant": "depends on full history and address layout", "anchors": ["src/opt/mm_buddyTemplate.c: freeFreedAndMerge, heapUsed", "src/opt/mm_buddy.c"]}
{"id": "C09", "title": "Garbage collection never frees a reachable object and leaves reference counts right", "statement": "After a collection every object reachable from the roots (explicit roots or references held from outside the heap) is still allocated with its contents and its reference count equals the number of references to it.", "quantifier": "all heap graphs (including cyclic), all root sets", "why_tests_cant": "unsafe frees need particular cyclic graphs", "anchors": ["src/opt/gc.c: gc_forceGC, gc_run, GC_DEC_REFC, GC_INC_REFC, GC_MARK, gc_tryFree"]}
{"id": "C10", "title": "Garbage collection frees every unreachable cycle", "statement": "After a collection every object not reachable from the roots or from outside references has been released.", "quantifier": "all heap graphs and root sets", "why_tests_cant": "leaks of cyclic structures depend on the shape of the graph", "anchors": ["src/opt/gc.c: gc_forceGC, gc_run, gc_tryFree"]}
{"id": "C11", "title": "Narrowing an array's storage never changes its elements and finds the smallest type", "statement": "Squeezing an integer, float or character array yields an array with equal elements stored in the smallest element type that can represent all of them.", "quantifier": "all arrays of any length and element values", "why_tests_cant": "the check ORs transformed values together, so a wrong mask shows only for particular combinations of values", "anchors": ["src/builtins/squeeze.c: squeeze_numNew, squeeze_chrNew, num_squeeze, int_squeeze_sorted"]}
{"id": "C12", "title": "Joining arrays of different storage types loses no element", "statement": "The element type chosen for combining two arrays can represent every element of both and is the least such type in the storage order; appending keeps every earlier element and adds the new one, whether or not the buffer is reused in place, and changes no other array, as long as every array has fewer than 2^32 elements.", "quantifier": "all pairs of element types and all element values, all buffer capacities, all histories of sharing, slicing, appending and joining", "why_tests_cant": "in-place reuse depends on the allocation size left over from earlier history", "anchors": ["src/utils/mut.h: el_or, arr_join_inline, inplace_add"]}
{"id": "C13", "title": "Integer array arithmetic never wraps", "statement": "For + - × ∧ ∨ ⌊ ⌈ on integer-typed arrays the result is the exact mathematical result for every element, in whatever storage type: overflow of a narrow type always leads to recomputation in a wider one.", "quantifier": "all lengths, all element values of all integer storage types", "why_tests_cant": "overflow of one element in a long array at particular values", "anchors": ["src/builtins/arithd.c: DOI8, DOI16, DOI32, AR_I_AA, REG_SA, REG_AS, bitAA1, bitAA2"]}
{"id": "C14", "title": "Modulus by a power of two is the true modulus", "statement": "For integer arrays and a positive power of two 𝕨, 𝕨|𝕩 is the mathematical (non-negative) remainder for every element, including negative ones, for every storage type.", "quantifier": "all element values and all powers of two up to 2^30", "why_tests_cant": "type boundaries make a few exponent/type combinations special", "anchors": ["src/builtins/arithd.c: stile INT_SA"]}
{"id": "C15", "title": "Copying a bit range changes exactly that range", "statement": "Copying l bits from offset xs of one bit array to offset rs of another makes the destination bits equal to the source bits and leaves every other destination bit unchanged.", "quantifier": "all offsets, lengths and contents", "why_tests_cant": "4096 alignment combinations times word-boundary cases times contents", "anchors": ["src/utils/mut.h: bit_cpy", "src/utils/mut.c: bit fill"]}
{"id": "C16", "title": "Reversing a boolean list reverses it", "statement": "⌽ on a boolean list of any length n gives the list whose element i is element n-1-i of the argument.", "quantifier": "all lengths and contents", "why_tests_cant": "the packed algorithm's cross-word shifts depend on n mod 64", "anchors": ["src/builtins/sfns.c: reverse_c1", "src/core/stuff.h: bit_reverse64"]}
{"id": "C17", "title": "Boolean scans equal the element-by-element scan", "statement": "≠` =` ∨` ∧` <` and +` on boolean lists equal the left-to-right scan by definition for every length.", "quantifier": "all lengths and contents", "why_tests_cant": "carries between 64-bit words are only exercised by particular long patterns", "anchors": ["src/builtins/scan.c: scan_ne, scan_eq, scan_or, scan_and, scan_lt, scan_add_bool"]}
{"id": "C18", "title": "Boolean folds equal the right-to-left fold", "statement": "+´ -´ ≠´ =´ <´ ≤´ >´ ≥´ ∧´ ∨´ on a boolean list equal the right-to-left fold of the function.", "quantifier": "all lengths at least one and all contents", "why_tests_cant": "the shortcuts inspect only positions of first bits and parities", "anchors": ["src/builtins/fold.c: fold_c1, bit_diff, fold_ne, bit_sum"]}
{"id": "C19", "title": "Integer sums are exact", "statement": "+´ of an integer list gives the exact mathematical sum whenever every partial sum of the right-to-left fold is below 2^53 in magnitude, with no intermediate machine overflow; totals used as lengths reject negative counts and overflow.", "quantifier": "all lengths and element values", "why_tests_cant": "block accumulators overflow only for long lists of extreme values", "anchors": ["src/builtins/fold.c: DEF_INT_SUM, sum_fns, usum"]}
{"id": "C20", "title": "Array comparison is a total order consistent with match", "statement": "The ordering used by ⍋ ⍒ ∧ ∨ on arbitrary nested values is reflexive, antisymmetric up to match, transitive and total.", "quantifier": "all nested arrays of numbers and characters of any rank and depth", "why_tests_cant": "transitivity ranges over triples of unbounded nested arrays", "anchors": ["src/builtins/compare.c: compareF", "src/core/stuff.h: compare, floatCompare"]}
{"id": "C21", "title": "Sorting returns the ordered, stable arrangement", "statement": "Sort returns a permutation of its argument in non-decreasing order; grade returns the stable sorting permutation, for every length (the merge-run strategy included).", "quantifier": "all lists of any length and any total preorder (sorting 32-bit integer lists of 2^30 or more elements excepted: the program is shown to write outside its buffer there)", "why_tests_cant": "run detection, galloping/merge-stack interactions depend on the order pattern of long inputs", "anchors": ["src/builtins/sortTemplate.h", "src/builtins/grade.h", "src/builtins/slash.c: grade_bool"]}
{"id": "C22", "title": "Binary-search bins are counts of smaller-or-equal elements", "statement": "𝕨⍋𝕩 on a sorted 𝕨 gives for each element of 𝕩 the number of elements of 𝕨 not greater than it.", "quantifier": "all sorted lists and all queries", "why_tests_cant": "off-by-one at runs of equal elements and power-of-two lengths", "anchors": ["src/builtins/grade.h: GRADE c2", "src/builtins/sortTemplate.h: BINARY_SEARCH"]}
{"id": "C23", "title": "Indices of a boolean list", "statement": "/𝕩 for a boolean list lists exactly the positions of the ones in increasing order, and replicate of a list by booleans keeps exactly those elements in order.", "quantifier": "all lengths and contents", "why_tests_cant": "sparse, dense and chunked code paths are chosen by density", "anchors": ["src/builtins/slash.c: WHERE_SPARSE, WHERE_DENSE, bsp_fill, compress, where"]}
{"id": "C24", "title": "Replicate repeats each element its count", "statement": "𝕨/𝕩 with natural-number counts is the concatenation of 𝕨_i copies of 𝕩_i; the inverse /⁼ counts occurrences such that /⁼/𝕨 is 𝕨 without trailing zeros; negative counts and negative indices are rejected.", "quantifier": "all count lists and lists", "why_tests_cant": "totals, trailing zeros and negative detection interact", "anchors": ["src/builtins/slash.c: slash_c2, slash_c1, slash_im"]}
{"id": "C25", "title": "Indexing wraps negatives once and rejects everything else", "statement": "𝕨⊏𝕩 picks 𝕩_i for 0≤i<n, 𝕩_(n+i) for -n≤i<0, and errors for all other indices; no out-of-range element is ever read, for every index storage type.", "quantifier": "all index lists, lengths and storage types", "why_tests_cant": "the blocked min/max check and narrow-type wraparound fail only at particular length/type boundaries", "anchors": ["src/builtins/select.c: select_c2 CPUSEL, WRAP", "src/core/stuff.h: WRAP"]}
{"id": "C26", "title": "Selecting under changes exactly the selected cells", "statement": "𝔽⌾(𝕨⊸⊏)𝕩 replaces the cells selected by 𝕨 with those of the result and keeps all others; duplicated indices are accepted only if they receive matching cells.", "quantifier": "all index lists with or without duplicates, all cell sizes", "why_tests_cant": "duplicates and large cells are rarely combined in tests", "anchors": ["src/builtins/select.c: select_replace"]}
{"id": "C27", "title": "Rotation moves every element by the given amount modulo the length", "statement": "n⌽𝕩 has element (i+n) mod l of 𝕩 at position i for every integer n (negative or larger than the length), and rotating back restores 𝕩.", "quantifier": "all lengths, contents and rotation amounts", "why_tests_cant": "modular wrap at extreme amounts", "anchors": ["src/builtins/sfns.c: WRAP_ROT, reverse_c2, reverse_ix"]}
{"id": "C28", "title": "Transpose moves the first axis to the end and undo restores it", "statement": "⍉𝕩 moves the first axis to the end; the element at each index tuple is preserved; ⍉⁼⍉𝕩 is 𝕩.", "quantifier": "all shapes and contents", "why_tests_cant": "blocked copies with odd sizes", "anchors": ["src/builtins/transpose.c: transpose_T, transp_c1, transp_im"]}
{"id": "C29", "title": "Group puts each element into the bucket of its index", "statement": "𝕨⊔𝕩 gives for each bucket k the elements whose index is k in original order; index ¯1 drops the element; anything below ¯1 is an error; the number of buckets is one more than the largest index, or the extra trailing length when given.", "quantifier": "all index lists and data", "why_tests_cant": "statistics pass, position prefix sums and sorted fast path interact", "anchors": ["src/builtins/group.c: group_simple"]}
{"id": "C30", "title": "Search functions agree with linear search", "statement": "𝕨⊐𝕩 gives the first index of each 𝕩 cell in 𝕨 or the length; 𝕩∊𝕨 says whether it occurs; 𝕨⊒𝕩 uses each occurrence at most once, in order.", "quantifier": "all lists", "why_tests_cant": "table, hash and brute-force paths depend on sizes and value ranges", "anchors": ["src/builtins/search.c: indexOf_c2, memberOf_c2, count_c2"]}
{"id": "C31", "title": "Self-search functions agree with their definitions", "statement": "⊐𝕩 numbers distinct elements by first appearance, ∊𝕩 marks first appearances, ⊒𝕩 counts earlier occurrences, ⍷𝕩 keeps first appearances.", "quantifier": "all lists", "why_tests_cant": "path choice by type, range and length", "anchors": ["src/builtins/selfsearch.c: indexOf_c1, memberOf_c1, count_c1, find_c1"]}
{"id": "C32", "title": "•math.GCD and LCM are exact", "statement": "GCD returns the greatest common divisor of any two 64-bit naturals, with gcd(0,n)=n; LCM returns the least common multiple whenever it fits in 64 bits.", "quantifier": "all pairs of 64-bit naturals", "why_tests_cant": "2^128 pairs; subtraction wrap-around in the binary algorithm", "anchors": ["src/builtins/arithd.c: gcd_u64, lcm_u64"]}
{"id": "C33", "title": "Random deals and subsets are duplicate-free and in range", "statement": "(rand).Deal returns distinct indices below 𝕩 (a permutation for the monadic case) and Subset returns 𝕨 distinct increasing indices, whatever the random stream.", "quantifier": "all sizes and all random streams", "why_tests_cant": "duplicates would need particular random streams and hash probe patterns", "anchors": ["src/builtins/sysfn.c: rand_deal_c1, rand_deal_c2, rand_subset_c2", "src/utils/wyhash.h: wy2u0k"]}
{"id": "C34", "title": "Accepted bytecode never under- or overflows the value stack", "statement": "If the block compiler accepts a body then executing it never pops below the frame's base and never holds more values than the reserved maximum.", "quantifier": "all bytecode sequences accepted by the compiler", "why_tests_cant": "bytecode programs are unbounded", "anchors": ["src/vm.c: compileBlock, evalBC, sD_m, sC_m, bL_m"]}
{"id": "C35", "title": "Catching an error restores the interpreter stacks", "statement": "After an error is caught, the value stack, call-environment stack and catch stack have exactly the heights they had when the catch was installed, for any nesting of calls, catches and errors.", "quantifier": "all traces of calls, pushes, catches and throws", "why_tests_cant": "nesting depth and interleaving are unbounded", "anchors": ["src/vm.c: prepareCatch, popCatch, throwImpl, unwindEnv, pushEnv, popEnv"]}
{"id": "C36", "title": "Result sizes are computed without wrap-around", "statement": "When a primitive computes a result element count from argument sizes, either the count is the exact mathematical product or sum or an error is raised; a wrapped count is never used for allocation.", "quantifier": "all argument shapes whose sizes fit the index type", "why_tests_cant": "needs arrays of billions of elements", "anchors": ["src/core/stuff.h: uszMul, mulOn, addOn", "src/builtins/select.c: select_c2 ria", "src/builtins/sfns.c: couple_c2, shape_c2", "src/utils/mut.h: arr_join_inline"]}
{"id": "C37", "title": "Integer scans are exact and independent of the element type", "statement": "+`, ⌊` and ⌈` (with and without 𝕨) on integer lists give the element-by-element results whatever element type the list is stored with, falling back to wider types instead of wrapping; sums are exact while every prefix is at most 2^53 in magnitude.", "quantifier": "all integer lists of every element type and all 32-bit 𝕨", "why_tests_cant": "overflow depends on the position where the running sum leaves 32 bits; 𝕨 outside the element type takes separate paths", "anchors": ["src/builtins/scan.c: scan_plus, scan_min_num, scan_max_num, MINMAX2"]}
{"id": "C38", "title": "•math.Sum of integers is exact", "statement": "•math.Sum of an integer list terminates with the exact total whenever the total is representable as a double, independent of the order and size of intermediate sums. (Violated for lists of more than 2^32 bytes, where offsets wrap, and of more than 2^32-2^16 elements, where it does not terminate.)", "quantifier": "all integer lists of every element type", "why_tests_cant": "the faults need lists of gigabytes", "anchors": ["src/builtins/fold.c: sum_c1, sum_small_fns"]}
{"id": "C39", "title": "Integer products, minima and maxima are exact", "statement": "×´ of an integer list is the exact product while every right-to-left partial product is representable as a double; ⌊´ and ⌈´ give the least and greatest element; the early exits of ∨´ do not change its result.", "quantifier": "all integer lists of every element type", "why_tests_cant": "the switch from 32-bit to double products happens at a data-dependent position", "anchors": ["src/builtins/fold.c: DEF_INT_PROD, MIN_MAX, fold_c1"]}
{"id": "C40", "title": "Character arithmetic gives valid characters or errors", "statement": "Adding an integer to, or subtracting one from, a character gives exactly the character with that code point, or an error if there is none; the difference of two characters is the exact difference of code points. (The element loops overflow a signed 32-bit integer for numbers near the ends of the 32-bit range.)", "quantifier": "all characters and all 32-bit integers (all integers up to 2^62 in magnitude for scalars)", "why_tests_cant": "the rejected range relies on wrapping of negative results", "anchors": ["src/builtins/arithd.c: add_SA, sub_AA, sub_AS, add_c2, sub_c2"]}
{"id": "C41", "title": "Random ranges stay in range", "statement": "(rand).Range gives as many integers as asked for, each at least 0 and below 𝕩, whatever the random stream, and never writes outside the result.", "quantifier": "all sizes, all ranges and all random streams", "why_tests_cant": "the largest values need particular random words; sizes near the limits need gigabytes", "anchors": ["src/builtins/sysfn.c: rand_range_c1, rand_range_c2", "src/utils/wyhash.h: wyrand, wy2u0k"]}
{"id": "C42", "title": "Reshape repeats the argument's elements in order", "statement": "When 𝕨⥊𝕩 has more elements than 𝕩, element i of the result is element i mod n of 𝕩 (n its number of elements), for every storage format including packed booleans; the fill writes only inside the result and never copies between overlapping regions.", "quantifier": "all argument lengths, result lengths, element types and contents, whatever uninitialised memory holds", "why_tests_cant": "the paths depend on the length modulo 8 and 64, on powers of two and on 32 KB blocks; tests sample few lengths", "anchors": ["src/builtins/sfns.c: reshape_cycle, reshape_one, fill_words", "src/utils/mut.h: bit_cpyN"]}
{"id": "C43", "title": "Take and Drop give the right element at every index", "statement": "𝕨↑𝕩 and 𝕨↓𝕩, for an integer or a list of integers of either sign and 𝕩 of any rank (with leading unit axes added when 𝕨 is longer), have the shape BQN defines; every element of the result is the element of 𝕩 at the shifted index, or the fill when that index is outside 𝕩; nothing outside 𝕩 is read and every element of the result is written, for every storage format including packed booleans.", "quantifier": "all ranks, shapes, amounts and contents, whatever uninitialised memory holds", "why_tests_cant": "the high-rank path merges axes and skips with precomputed distances; tests cover a few shapes", "anchors": ["src/builtins/sfns.c: take_c2, drop_c2, takedrop_highrank, take_impl, take_head", "src/utils/mut.c: m_fillG, m_copyG"]}
{"id": "C44", "title": "Padding cells of booleans changes no result", "statement": "When cells of a boolean array (or short cells of other elements) are padded to whole bytes or words before selection or searching, padding then removing it is the identity, selection picks exactly the indexed cells, and two cells are found equal exactly if all their bits are equal; nothing outside the arrays is read or written.", "quantifier": "all cell sizes, cell counts and contents, whatever uninitialised memory holds", "why_tests_cant": "cells straddle word boundaries at offsets that depend on the cell size and number; cells compared as floats could hit NaN or negative zero patterns; wraps need large arrays", "anchors": ["src/utils/bits.c: bitwiden, bitnarrow, widenBitArr, narrowWidenedBitArr", "src/builtins/search.c: toIntCell, splitCells", "src/builtins/select.c: select_c2"]}
{"id": "C45", "title": "Match is exact", "statement": "𝕨≡𝕩 is 1 exactly if both are equal numbers (a NaN equals nothing), equal characters, arrays of the same shape with matching elements, the same function, modifier or namespace, or derived functions of the same kind with matching parts; the element types in which arrays are stored, and the unused bits of packed booleans, play no role.", "quantifier": "all values: arrays of any rank, nesting and element types, and functions", "why_tests_cant": "64 pairs of element types times word boundaries and padding contents; the padding can't be set from BQN", "anchors": ["src/builtins/compare.c: equal, eequal, matchFns, matchFnData, decomposeEqual", "src/core/stuff.h: atomEqual"]}
{"id": "C46", "title": "Matching values have equal hashes", "statement": "Two values that match have the same hash, whatever element types they are stored in and whatever memory holds after them, so that hashing searches and •HashMap find every match. (Violated for a list that was squeezed while empty and then extended in place: it keeps a flag that makes its hash depend on how it's stored.)", "quantifier": "all pairs of matching values, all hash secrets, all contents of memory past the arrays", "why_tests_cant": "the secret is drawn at start and memory after an array is arbitrary", "anchors": ["src/utils/hash.h: bqn_hash, bcl, normalizeFloat", "src/utils/hash.c: bqn_hashObj", "src/utils/wyhash.h: wyhash, wyhash64", "src/builtins/search.c: asNormalized"]}
{"id": "C47", "title": "Shifts and Reverse move whole cells", "statement": "For an array of any rank from 1 on, »𝕩 and «𝕩 move the major cells by one and bring in a cell of fills; 𝕨»𝕩 gives the first ≠𝕩 cells of 𝕨∾𝕩 and 𝕨«𝕩 the last ≠𝕩 cells of 𝕩∾𝕨, also when 𝕨 is longer than 𝕩; ⌽𝕩 gives the major cells in reverse order. The shape stays that of 𝕩. A 𝕨 that isn't made of cells of 𝕩 gives an error, and so does a 𝕩 without axes. No memory outside of the arrays is used.", "quantifier": "all shapes, lengths of 𝕨 and 𝕩, element types and contents, whatever uninitialised memory holds", "why_tests_cant": "cells of booleans start at any bit of a word, and Reverse has different code for each width of a cell, chosen from the product of the shape", "anchors": ["src/builtins/sfns.c: shift_check, shiftb_c1, shiftb_c2, shifta_c1, shifta_c2, reverse_c1", "src/core/arrFns.h: multWidthLog, cellWidthLog"]}
{"id": "C48", "title": "Reorder Axes puts every element where 𝕨 says", "statement": "𝕨⍉𝕩 has the axes of 𝕩 in the places given by 𝕨, the other axes in the places that are left, and at every index the element of 𝕩 whose index has the same numbers in those places; axes sent to the same place give a diagonal as long as the shortest of them. Nothing is taken twice, and nothing is lost when no number is repeated. A 𝕨 that is too long, names an axis that isn't there or leaves a gap gives an error. No memory outside of the arrays is used. (Violated only for axes of 4294967295 elements, which an empty array can have.)", "quantifier": "all ranks, shapes, lists 𝕨 with and without repeated numbers, element types and contents", "why_tests_cant": "the copy runs over merged axes with four methods, chosen from the sizes of cells and axes; the blocked one needs at least 256 bytes", "anchors": ["src/builtins/transpose.c: transp_c2, AXIS_LOOP, transposeFns"]}
{"id": "C49", "title": "•bit._cast keeps the bits", "statement": "a‿b•bit._cast 𝕩 gives an array whose rows have exactly the bits of the rows of 𝕩, cut into elements of the new type; its inverse gives 𝕩 back; rows that aren't a whole number of new elements, types that don't exist and atoms give an error. (Violated for results of 2⋆32 elements or more, and for characters kept in a generic array.)", "quantifier": "all shapes, element types, pairs of types and contents, whether or not the argument can be reused", "why_tests_cant": "every pair of types times shape, storage and sharing; the violation needs 512 MB", "anchors": ["src/builtins/bit.c: bitcast_impl, getCastType, convert, set_bit_result"]}
{"id": "C50", "title": "The other functions of •bit work on every piece", "statement": "•bit._not, _neg, _and, _or, _xor, _add, _sub and _mul cut the bits of their arguments into pieces of the given width and give for every piece the complement, negation, bitwise function, sum, difference or product modulo 2⋆width, with the shape that the result width requires; an argument that is a single piece is used for all pieces of the other one; other combinations of shapes give an error. (Violated for arguments of 2⋆32 bits or more, whose result gets too little memory, and for products that overflow.)", "quantifier": "all widths, shapes, element types and contents, whatever uninitialised memory holds", "why_tests_cant": "four widths and three ways to pair the arguments; bits past the last whole word; the violations need 512 MB or an optimising compiler", "anchors": ["src/builtins/bit.c: bitop1, bitop2, set_bit_result, req2"]}
{"id": "C51", "title": "Comparisons compare every pair of elements", "statement": "𝕨≤𝕩, 𝕨<𝕩, 𝕨≥𝕩, 𝕨>𝕩, 𝕨=𝕩 and 𝕨≠𝕩 pair the atoms of 𝕨 and 𝕩 by their leading axes, at every depth, and give for every pair 0 or 1 as the numbers, characters or functions compare; every number is less than every character; the call fails exactly when shapes don't agree somewhere or a pair cannot be ordered. The result doesn't depend on the types in which elements are stored or on uninitialised memory.", "quantifier": "all nested arrays, shapes, storage types and contents, all six comparisons", "why_tests_cant": "eight storage types on either side, scalar, equal-rank, leading-axis and nested paths, each with its own loop", "anchors": ["src/builtins/cmp.c: CMP_AA_D, CMP_SA_D, CMP_SCALAR, aMakeEq", "src/builtins/cells.c: leading_axis_arith", "src/utils/each.c: eachd_fn"]}
{"id": "C52", "title": "Each calls its operand on matching elements in index order", "statement": "𝕨 F¨ 𝕩 calls F exactly once for every element of the result, in the order of its indices, on the elements of 𝕨 and 𝕩 that the leading parts of the index select, whatever effects F has; the result has the longer of the two shapes; if neither shape begins with the other one the call fails and F isn't called.", "quantifier": "all arrays, shapes and operands with arbitrary effects", "why_tests_cant": "order and number of calls for effects such as errors, output and assignment", "anchors": ["src/utils/each.c: eachd_fn", "src/builtins/md1.c: each_c2"]}
{"id": "C53", "title": "Merge puts the elements of the elements in order", "statement": ">𝕩 of an array whose elements have the same shape has the shape of 𝕩 followed by that shape, and exactly the elements of the elements, in order, whatever types they are stored with and wherever in 𝕩 a wider type turns up; elements of different shapes, and a result with more than 255 axes, give an error. The result has a fill exactly if all (nonempty) elements have that fill. An empty 𝕩 takes the shape of its fill. The same holds for the results of ˘ and ⎉, which are put together the same way, and parts of different lengths that are joined follow one another in order.", "quantifier": "all arrays of arrays and atoms, shapes, storage types and contents, whatever uninitialised memory holds", "why_tests_cant": "the buffer changes its type during the appends; nine types times the place of the widest one, and the fill changes with it", "anchors": ["src/core/stuff.c: bqn_merge", "src/utils/mut.c: apd_sh_init, apd_tot_init, apd_reshape, apd_widen, APD_MK, apd_fill_end"]}
{"id": "C54", "title": "Cells and Rank call the operand on every cell in order", "statement": "𝔽⎉𝕘 takes one to three whole numbers, or infinities, from 𝕘, and calls 𝔽 exactly once for each cell of 𝕩 of that rank (negative ones count from the rank of 𝕩, and cells have at most as many axes), or for each pair of cells of 𝕨 and 𝕩 that belong together by their leading axes, in the order of their indices, whatever effects 𝔽 has; the results are merged. Leading axes that differ and other 𝕘 are errors before 𝔽 is called. 𝔽˘ does so for major cells. When there are no cells, 𝔽 is called only if it has no effects, and the result is empty. (Violated for empty arrays with 2⋆32 cells or more, whose number wraps.)", "quantifier": "all arrays, ranks, shapes and operands with arbitrary effects", "why_tests_cant": "order, number and arguments of calls for all pairs of ranks and frames; the violation needs an unusual empty array", "anchors": ["src/builtins/cells.c: for_cells_c1, for_cells_AS, for_cells_SA, for_cells_AA, rank2_empty, rank_c1, rank_c2, cell_c1, cell_c2"]}
{"id": "C55", "title": "Fold, Insert and Scan call their operand in order on the right values", "statement": "𝔽´𝕩 is x₀𝔽x₁𝔽…𝔽xₙ and 𝕨𝔽´𝕩 is x₀𝔽…𝔽xₙ𝔽𝕨, from right to left, 𝔽˝ is the same on major cells, and 𝔽` gives for each element the result of 𝔽 on the result a cell before and the element, or on 𝕨 or the first cell as it is, from left to right; 𝔽 is called exactly as often and in this order whatever effects it has. One element or cell is the result itself, and none gives 𝕨 or the identity of 𝔽 (repeated in the shape of a cell) or an error. The short cuts for arithmetic with short or long cells, single elements, ⊣, ⊢, ∾, constants and units give the same. (Violated for empty arrays with large cells: 32-bit products wrap, and the result is malformed.)", "quantifier": "all arrays, shapes, initial values and operands with arbitrary effects", "why_tests_cant": "each operand, rank and size of cells takes another way; that they agree is a statement about all arrays and all effects", "anchors": ["src/builtins/fold.c: fold_c1, fold_c2, insert_c1, insert_c2, insert_scal", "src/builtins/scan.c: scan_c1, scan_c2", "src/builtins/cells.c: insert_base, scan_arith"]}
{"id": "C56", "title": "Cells and Rank give the same for functions they recognise", "statement": "F˘ and F⎉k have code of their own when F is one of ⊣ ⊢ < ⊏ ⊑ ≍ ⥊ » « ⌽ ∧ ∨ ⍷ ⍋ ⍒ ⊐ ⊒ ∊ ≍⁼ ≡ ≢, a constant, or a function with ´, ˝ or `. The result, or error, is the one that calling F on every cell (or pair of cells) and merging the results gives. (Violated for ∾˝˘ on rows of one element, identities that are arrays or don't exist, rank 255, and sizes that wrap.)", "quantifier": "all arrays, ranks, frames, storage types and operands without effects", "why_tests_cant": "each function has several ways by element type, width, row length and rank; that they agree with the general loop is a statement about all arrays", "anchors": ["src/builtins/cells.c: for_cells_c1, for_cells_AS, for_cells_SA, for_cells_AA, select_cells, pick_cells, shift_cells, match_cells, const_cells, interleave_cells", "src/builtins/select.c: select_cells_single", "src/builtins/fold.c: insert_cells_join, insert_cells_identity", "src/builtins/transpose.c: join_cells"]}
{"id": "C57", "title": "Join puts the elements of an array together, or refuses", "statement": "∾𝕩 for an array with elements gives an array exactly when the elements fit: along each axis of 𝕩 all elements at one position have the same length or all lack the axis, some position has it, and the other axes are the same for all. Then each element of each element is at its index offset by the lengths before it, and nothing else is in the result; a position that lacks the axis counts as one cell. Otherwise it's an error. (Violated when the first element of an array of rank 2 or more lacks an axis that others have: what fits can be refused, and what doesn't accepted, using memory outside of the arrays.)", "quantifier": "all arrays of any rank with elements of any shapes", "why_tests_cant": "the combinations of ranks, absent axes, empty elements and shapes are unbounded; the violation needs an absent leading axis at the first element and two more axes of different lengths", "anchors": ["src/builtins/sfns.c: join_c1", "src/core/stuff.h: shcpy, eqShPart"]}
{"id": "C58", "title": "Table and Each call their operand on every pair or element, in order", "statement": "𝕨 𝔽⌜ 𝕩 calls 𝔽 once for each pair of an element of 𝕨 and one of 𝕩, those with the first element of 𝕨 first, and the results have the shape of 𝕨 followed by that of 𝕩; 𝔽¨𝕩 calls 𝔽 on each element in order, also when the results are put in place of the elements. The ways for ⊣, ⊢, constants and arithmetic give the same. A result that is too large is an error. The operand stays usable. (Violated: Table frees an operand that is an array.)", "quantifier": "all arguments, shapes, storage types and operands with arbitrary effects", "why_tests_cant": "each operand and storage type takes another way; agreement is a statement about all arrays, and the wrong reference count shows only when the operand is used again after the result is freed", "anchors": ["src/builtins/md1.c: tbl_c2, each_c1", "src/utils/each.c: eachm_fn", "src/builtins/sfns.c: reshape_one, reshape_cycle"]}
{"id": "C59", "title": "Repeat replaces each number by the result of that many calls", "statement": "𝔽⍟𝔾 𝕩 calls 𝔾 once and gives its result with each number n replaced by the result of n calls of 𝔽 on 𝕩, or of -n calls of its inverse. 𝔽 is called as often as the greatest number says, its inverse as often as the least one does, and no more; anything else than integers between -2^48 and 2^48 (or a natural number by itself) is an error before any of these calls. 𝔽•_while_𝔾 gives the result of the least number of calls for which 𝔾 is 0.", "quantifier": "all nested arrays of numbers, storage types, arguments and operands with arbitrary effects", "why_tests_cant": "the numbers, their nesting and the effects of the operands are unbounded; results are kept in memory that is addressed with negative and positive numbers", "anchors": ["src/builtins/md2.c: repeat_c1, repeat_c2, repeat_bounds, repeat_replace, while_c1, while_c2", "src/builtins/search.c: getRange_fns"]}
{"id": "C60", "title": "Pick replaces each index by the element at its position, and Choose calls what is picked", "statement": "𝕨⊑𝕩 gives 𝕨, a nested array of indices whose empty arrays are lists, with each index (a number, or a list of as many integers as 𝕩 has axes) replaced by the element of 𝕩 at that position, where negative numbers count from the end of an axis. Anything else is an error: numbers out of range or not whole, lists of another length, mixed lists. ⊑𝕩 is the first element. 𝔽◶𝕘 calls 𝔽 once, and then what its result picks from 𝕘 with the same arguments.", "quantifier": "all nested indices, however stored, all arrays, and operands with arbitrary effects", "why_tests_cant": "indices are nested without bound; a position is computed modulo 2^32 from 64-bit numbers that may be negative", "anchors": ["src/builtins/sfns.c: pick_c1, pick_c2, recPick, PICK_IDX", "src/core/stuff.h: WRAP", "src/builtins/md2.c: cond_c1, cond_c2"]}
{"id": "C61", "title": "Lines that are written are read again, and paths are taken apart and put together", "statement": "•file.Lines gives the lines of any file, where a line is ended by a newline, a carriage return or both, and the last end may be missing; a line that isn't valid text is an error. Lines that are written are read again exactly if no line contains a line end; text and bytes that are written are read again. •file.At puts a relative path after its base with one separator between them and leaves an absolute one alone, •file.Name is what follows the last separator, •file.Parent what precedes the name, and both together give the path again.", "quantifier": "all contents of files, all lists of lines, all paths", "why_tests_cant": "each mix of line ends, also at the end of a file, takes another way through two loops that must agree about the number of lines", "anchors": ["src/utils/file.c: path_lines, path_rel, path_parent, path_name, get_chars, path_wChars", "src/builtins/sysfn.c: flines_c1, flines_c2, fchars_c1, fchars_c2, fbytes_c1, fbytes_c2"]}
{"id": "C62", "title": "Assignment gives exactly the variables of its target the values that belong to them", "statement": "t←x and t↩x succeed exactly if x fits the target t (nested lists, arrays of cells, fields of namespaces, ·; for ↩ the variables must be defined), and then each variable has the value at its place and no other variable has changed; otherwise it's an error and only variables of the target may have changed. The same holds of headers, whose constants must match. t F↩ calls F once with the value of t, during which the variables of t can't be read, and assigns the result; for F that only computes it's the same as t↩F t, and t ⊢↩ changes nothing. A variable without a value can't be read.", "quantifier": "all targets however nested, all values, all states of all variables, all functions F with any effects", "why_tests_cant": "targets and values nest without bound, and F may change or read the variables that are being assigned", "anchors": ["src/vm.c: v_setF, v_sethF, v_getF, v_merge, evalBC (SETN, SETU, SETM, SETC, SETH1, SETH2, VARO, FLDG)", "src/vm.h: v_set, v_seth, v_get, v_setI, v_getI", "src/ns.c: ns_getU, ns_qgetU, ns_getNU, ns_set, pos2gid"]}
{"id": "C63", "title": "Under replaces exactly the part that the function gives", "statement": "𝔽⌾𝔾 𝕩 for functions 𝔾 that move elements (⊢ ⊑ ⥊ ⌽ < ⋈ ≍, and n⊸ or n before ⊑ ↑ ↓ ⥊ ⌽, and any compositions g∘h, g h and n g h of such) calls 𝔽 once, with 𝔾𝕩, and the result is the one value for which 𝔾 gives the result of 𝔽 and that is the same as 𝕩 in all that 𝔾 doesn't give; if there is no such value, or no 𝔾𝕩, it's an error. 𝕨 𝔽⌾𝔾 𝕩 does the same with (𝔾𝕨)𝔽𝔾𝕩.", "quantifier": "all such functions 𝔾 however composed, all values 𝕩, all 𝔽 with any effects, all ways to store the arrays", "why_tests_cant": "compositions nest without bound, and 𝔽 may do anything in between", "anchors": ["src/builtins/sfns.c: pick_uc1, pick_ucw, pick_replaceOne, pick_oneIndex, take_ucw, drop_ucw, takedrop_ucw, shape_uc1, shape_ucw, reverse_ix, enclose_im, pair_im, couple_im", "src/core/derv.c: fork_uc1, atop_uc1, atopM2_uc1, ucwWrap_c1, uc1Wrap_c1", "src/builtins/md2.c: under_c1, under_c2, before_uc1"]}
{"id": "C64", "title": "A call of a block runs the first body that applies, on the arguments of the call", "statement": "A block may have several bodies, with headers and predicates, for calls with one or two arguments and for their inverses. A call runs, of the bodies for that kind of call in the order of the source, the first one whose header matches and whose predicates are all 1. Each body sees the arguments as they were given, even if a body before it changed them until its header or predicate failed. If no body applies, the call is an error.", "quantifier": "all blocks: functions, modifiers and blocks that are run at once, any number of bodies for each kind of call, any code in them, any arguments", "why_tests_cant": "Bodies shared between kinds of calls, in any combination, and any code between predicates; tests cover a few blocks with two bodies.", "anchors": ["src/vm.c: compileBlock, gotoNextBody, execBlock, SETH1, SETH2, PRED1, PRED2, m_scopeI, funBl_c1, funBl_c2, funBl_im, funBl_iw, funBl_ix", "src/vm.h: argCount, blockGivenVars"]}
{"id": "C65", "title": "Range gives every index of a shape, in order", "statement": "`↕𝕩` of a natural number is the list of the natural numbers below it. Of a list of lengths it is the array with that shape where each element is its own index, a list. It is an error if the argument isn't a natural number or a list of them, if there are more than 255 axes, if a length is above `2⋆31`, or if the result would have `2⋆32` elements or more.", "quantifier": "all numbers and all arrays: any rank, any lengths, with and without lengths 0, 1 and 2", "why_tests_cant": "Element widths and loops change with the greatest length, and shapes of lengths 1 and 2 up to 64 axes are counted in one word; tests cover small shapes.", "anchors": ["src/builtins/fns.c: ud_c1, list_range, ud_rec_i8, ud_rec_i16, ud_rec_i32, bit_reverse64_low, intRange, intRange16, intRange32, intRangeF64"]}
{"id": "C66", "title": "Windows gives each slice of the leading axes, at each place where it fits", "statement": "For lengths `𝕨`, one for each of the leading axes of `𝕩`, the shape of `𝕨↕𝕩` is the number of places along each of these axes, then the lengths, then the other axes, and the element at a place, a position in the window and an index of the other axes is the element of `𝕩` at the sum of place and position. It is an error if a window is longer than its axis plus one, if `𝕨` isn't a natural number or a list of at most as many as `𝕩` has axes, or if the result would have more than 255 axes or, when it isn't empty, `2⋆32` elements or more. Axes of `2⋆32-1` elements, and windows of 2 of a list of `2⋆31`, are left out.", "quantifier": "all numbers and lists `𝕨` and all arrays `𝕩`: any rank, any shape with axes of fewer than `2⋆32-1` elements, also empty ones", "why_tests_cant": "Counters over two times the number of axes with strides that are found again after each carry; tests cover windows of at most two or three axes on small arrays.", "anchors": ["src/builtins/fns.c: ud_c2", "src/builtins/slash.c: slash_c2 (2/𝕩)"]}
{"id": "C67", "title": "Find marks exactly the places where the argument occurs", "statement": "The shape of `𝕨⍷𝕩` is the leading axes of `𝕩`, and then for each axis of `𝕨` the number of places where it fits, 0 if it's too long. An element is 1 exactly if all elements of `𝕨` match the elements of `𝕩` from that place on. It is an error if `𝕨` has more axes than `𝕩`. This holds for lists in lists, lists in the rows of tables, single elements in any array, and anything in empty arrays; other ranks, and lists of objects, are searched by code written in BQN. Left out are lists and rows of `2⋆32-1` elements, and results whose lengths, multiplied from the first on, reach `2⋆32`.", "quantifier": "all typed lists and tables, all single elements and all empty arrays, with any elements and any way to compare them", "why_tests_cant": "Comparison of all places at once, which stops or changes to one place at a time depending on how many are left; tests have few long lists with many partial matches.", "anchors": ["src/builtins/fns.c: find_c2"]}
{"id": "C68", "title": "Trains and combinators call their parts from right to left, each once, and neither leak nor overuse values", "statement": "Calling a train `F G H` or `G H`, or a function made with `˙ ˜ ∘ ○ ⊸ ⟜ ⊘ ◶`, calls exactly the parts that its meaning names, each once, from right to left, and returns what they give. So side effects happen in that order, an error happens exactly if a part that is called fails or a choice doesn't exist, and a part that isn't a function is its own result. Each argument is released once, the result is held once, and nothing is used after it was released, whatever the nesting.", "quantifier": "every nesting of trains and combinators over any functions with any effects, one or two arguments, arguments that are the same object, constants as parts", "why_tests_cant": "The order of effects and the balance of references depend on the nesting, on which of four variants of a fork is used, and on whether parts are functions, constants or numbers. A leak or an early release shows only later, if at all.", "anchors": ["src/core/derv.c: tr2D_c1, tr2D_c2, fork_c1, fork_c1_general, fork_c1_fff, fork_c1_vff, fork_c1_nff, fork_c2", "src/builtins/md2.c: val_c1, val_c2, over_c1, over_c2, atop_c1, atop_c2, before_c1, before_c2, after_c1, after_c2, cond_c1, cond_c2", "src/builtins/md1.c: const_c1, const_c2, swap_c1, swap_c2", "src/h.h: c1, c2, c1iX, c2iWX"]}
{"id": "C69", "title": "Prefixes and Suffixes give every one, in order", "statement": "`↑𝕩` is a list of one more element than `𝕩` has major cells: element `i` has the first `i` cells of `𝕩`. `↓𝕩` is as long: element `i` has all cells but the first `i`. The result's fill is the empty one of them. An atom or an array of rank 0 is an error.", "quantifier": "every shape of rank at least 1, all elements, both functions", "why_tests_cant": "Offsets and lengths are products in 32 bits, and the result is longer than the argument, so the limits are those of the arrays that are too large to test.", "anchors": ["src/builtins/sfns.c: affixes, take_c1, drop_c1", "src/core/harr.h: M_HARR, m_harr_impl", "src/core/stuff.h: arr_csz"]}
{"id": "C70", "title": "Join To puts the cells of both arguments together", "statement": "`𝕨∾𝕩` has the major cells of `𝕨` and then those of `𝕩`. An argument of one rank less than the other, or a unit or atom, is one cell. Any other pair of shapes is an error. The result is the same whether or not the memory of `𝕨` is reused for it.", "quantifier": "all shapes and elements, atoms, empty arrays, with and without reuse", "why_tests_cant": "Lengths are read from an array that may just have been changed, since the code appends before it compares shapes. Whether memory is reused depends on the history of the program.", "anchors": ["src/builtins/sfns.c: join_c2", "src/utils/mut.h: arr_join_inline"]}
{"id": "C71", "title": "An imported file is run once, and all imports of it give the same value", "statement": "`•Import 𝕩` runs the file the first time and returns what it gives. Every later import of the same path, from any file, returns that same value and has no other effect. An import of a file that is still being imported is an error, and no other import is refused like that. If running the file fails, the import fails, and a later import runs it again. With `𝕨`, the file is run each time.", "quantifier": "all programs and files, with any effects, any nesting of imports, and errors that are caught anywhere", "why_tests_cant": "It is about histories: files that import each other, fail at some point, and are imported again after the error was caught.", "anchors": ["src/builtins/sysfn.c: import_c1, import_c2"]}
{"id": "C72", "title": "Leaving a body frees no object that is still in use, and frees the body's own cycles", "statement": "When a body ends, its reference to its scope is dropped. If every other reference to the scope comes from blocks made in it that only its own variables hold, the scope is freed although its count is not 1, and the blocks with it. No object is touched after it has gone or freed twice; afterwards each reference count is the number of references that exist, and everything that can be reached from what is still held is still there, with the same contents. This holds after any history of making objects, copying, reading and dropping references, setting variables and leaving scopes. Without cycles nothing is left behind.", "quantifier": "all heaps with right counts, with any cycles among the objects; all scopes, with any number of variables; all histories of operations, of any length", "why_tests_cant": "A scope freed too early is seen only when a block that escaped from it is called later, and only if the memory has been used again; which references exist depends on the whole history of the program.", "anchors": ["src/vm.c: scope_decF, evalBC, gotoNextBody, DEF_FREE(funBl)", "src/vm.h: scope_dec, DEF_FREE(scope)", "src/h.h: dec, ptr_dec, value_free"]}
{"id": "C73", "title": "A field of a namespace is the exported variable with its name", "statement": "`ns.name` gives the value of the exported variable `name` of the namespace, and is an error when there is none, whenever and in whatever order the program that reads the field and the one that made the namespace were compiled. `•ns.Get`, `•ns.Has` and `•ns.Keys` agree with that, for a name written in any case and with any underscores. A variable that takes its value from a namespace takes the field with its own name.", "quantifier": "all histories of compiling bodies, naming fields and extracting variables; all declarations of variables, all names, all values", "why_tests_cant": "Fields are found by numbers that are given to names when they are first met, so that what a test sees depends on everything that was compiled before.", "anchors": ["src/ns.c: m_nsDesc, ns_getU, ns_getNU, ns_set, pos2gid", "src/builtins/fns.c: str2gid, str2gidQ, gid2str", "src/builtins/sysfn.c: name_normalize, nKeys_c1, nGet_c2, nHas_c2", "src/vm.c: FLDG, v_setF"]}
{"id": "C74", "title": "Fills: a prototype has the structure of its value, and arrays keep, share and pass on exactly the fills they should", "statement": "The prototype made of a value has the same shape and nesting with 0 for numbers and a space for characters, and there is none exactly when the value contains a function. Two fills count as the same exactly when they match. Giving an array a fill leaves its shape and elements as they are and makes that its fill; giving it an unknown one leaves numbers and characters with their own and other arrays with none. A result of two arguments has a fill exactly when both have one and these match. A new one-element array has the prototype of its element as its fill, and a new empty array has the fill of the array it stands in for.", "quantifier": "every value, of any nesting and any mix of ways of storing arrays, every fill, whether or not storage is shared, and whether or not the array is known to be stored in the smallest type", "why_tests_cant": "Fills are seen only when something is taken past the end, in arrays of some way of storing; a wrong one is wrong data much later, and the ways of storing multiply with nesting.", "anchors": ["src/core/fillarr.c: asFill, fillEqualF, withFill, m_funit, m_fvec1, m_oneItemArr, emptyVec, emptyArr", "src/core/fillarr.h: fillEqual, numFill, chrFill, getFillN, getFillR, fill_both"]}
{"id": "C75", "title": "Select with a list of arrays picks along each leading axis", "statement": "⟨i,j,…⟩⊏𝕩 has the shapes of i, j, … and then the other axes of 𝕩 as its shape, and at every index of all of these the element of 𝕩 at the numbers that i, j, … have there, negative ones counted from the end; an index that is not an integer or is outside of its axis, and more arrays than axes, are errors, and no memory outside of 𝕩 or the result is touched.", "quantifier": "every list of at least two index arrays of any shapes, every array 𝕩 of any shape, stored as numbers, characters or objects; for the values, results of fewer than 2⋆32 elements", "why_tests_cant": "The last array is used as one block when it is a range of more than three numbers, and indices of several axes are folded into one; which of these happens depends on all shapes and values together. Sizes of the result are products of lengths that the user chooses.", "anchors": ["src/builtins/select.c: select_depth2_parse_inds, select_depth2_inds, select_depth2_select, select_depth2_impl", "src/utils/mut.c: m_arrp_copyFill"]}
{"id": "C76", "title": "The inverse of Reorder Axes undoes it", "statement": "If the numbers in 𝕨 are different axes of 𝕩, then 𝕨⍉⁼𝕨⍉𝕩 and 𝕨⍉𝕨⍉⁼𝕩 both match 𝕩; 𝔽⌾(𝕨⊸⍉)𝕩 gives the array that 𝕨⍉ makes 𝔽𝕨⍉𝕩 of, also when 𝔽 changes the shape; numbers that are no axes or occur twice are errors for the inverse.", "quantifier": "every number or list 𝕨, every array 𝕩 with axes shorter than 2⋆32-1 and elements of any type and width, and every 𝔽", "why_tests_cant": "The inverse permutation is found from 𝕨 and the rank, with the axes that 𝕨 leaves out filled in; there are more permutations than can be tested, and the two directions and Under use it in different ways.", "anchors": ["src/builtins/transpose.c: invert_transp_w, transp_ix, transp_ucw, transp_c2"]}
{"id": "C77", "title": "Under with Replicate replaces what was taken and keeps the rest", "statement": "𝔽⌾(𝕨⊸/)𝕩 is 𝕩 with the elements of 𝔽𝕨/𝕩 at the places that those of 𝕨/𝕩 came from; elements with count 0 stay as they are. Elements for the same place must match, and a result of 𝔽 of another shape, or counts that are not natural numbers, are errors. No object is lost or released too often.", "quantifier": "every pair of lists 𝕨 and 𝕩 of the same length, with 𝕩 stored as bits, numbers, characters or objects, every function 𝔽, and whether the memory of 𝕩 is reused or not", "why_tests_cant": "There are different loops for each storage type and for reuse of memory, some of which write where they have yet to read; objects need their reference counts right for every mask and every list, and a count that is off by one shows up much later or never.", "anchors": ["src/builtins/slash.c: slash_ucw, decByMask, incByMask"]}
{"id": "C78", "title": "Arithmetic with one argument applies to every number at every depth", "statement": "+ - | ⌊ ⌈ × ¬ ÷ √ with one argument give the array of the same shape with the function applied to every number, at any depth, whatever type the numbers are stored as; a character or a function anywhere is an error. A result that does not fit the type of the argument is still right: -¯128 is 128. --𝕩 is 𝕩 and |-𝕩 is |𝕩.", "quantifier": "every value, of any shape and depth, with its numbers stored as bits, integers of 8, 16 or 32 bits, doubles or as separate values", "why_tests_cant": "Each function has loops for each storage type, which stop at the first element whose result does not fit and start again with another type; nested arrays mix them in every way.", "anchors": ["src/builtins/arithm.c: add_c1, GC1i, LOOP_BODY, arith_recm, bit_negate", "src/builtins/arithd.c: sub_SA", "src/utils/each.c: eachm_fn"]}
{"id": "C79", "title": "Modulus of integers is exact", "statement": "𝕨|𝕩 for integers is the number that differs from 𝕩 by a multiple of 𝕨, is less than 𝕨 in size, and is 0 or has the sign of 𝕨. Arrays and single numbers give the same. 0|𝕩 is NaN.", "quantifier": "every integer 𝕨 and 𝕩 of 32 bits, as numbers or as elements of arrays of any integer type, whose loops multiply by a rounded reciprocal or divide with 24 or 53 bits", "why_tests_cant": "A quotient that is rounded to the wrong side of an integer gives a remainder that is off by 𝕨; there are 2⋆64 pairs of arguments, and which of them are at risk depends on every rounding step in between.", "anchors": ["src/builtins/arithd.c: pfmod, divint_AA, floordiv_AA, floordiv_AS, modint_AA, modint_SA, modint_AS, GC2f", "src/builtins/sfns.c: reshape_one"]}
{"id": "C80", "title": "Values written to foreign memory are read back, and nothing else changes", "statement": "For a typed pointer object of •FFI: Write accepts exactly the values which suit the type (integers in the range of an integer type, lists of the right length for structures, arrays and reinterpreted scalars, pointers of a compatible type) and is an error otherwise; after it, Read at the same offset gives the same value (rounded at f32 places); memory outside the value, and so every other element, is unchanged. Field selects that field at every offset, Add, Sub and differences of pointers agree with offsets.", "quantifier": "every type built from scalars, pointers, structures, arrays and reinterpretations with non-overlapping fields; every value, pointer, offset and memory", "why_tests_cant": "types nest without bound, and what is overwritten beyond a value depends on what lies after it", "anchors": ["src/ffi.c: genObj, genObj_writePtr, readAny, readSimple, readRe, readStruct, toW, ty_equal, ptrobj_elbase, ptrobjRead_c1, ptrobjWrite_c2, ptrobjField_c1, ptrobjAdd_c1, ptrobjSub_c1, calcMemSize"]}
{"id": "C81", "title": "Foreign calls see the given arguments and give back what was left in mutable ones", "statement": "In a call of a foreign function, the elements of the argument lists are assigned to the parameters in order; the temporary places of the result and the arguments do not overlap and lie within the allocation; the offsets of fields do not overlap and lie within the size of the structure. For a mutable parameter (`&type` or `&type:repr`) the function gets a buffer with the values of the argument, and the value in the result is exactly what the function left in the buffer of that parameter, whatever it did. The objects kept for the arguments during the call are exactly those taken after it, and of the kinds assumed there.", "quantifier": "all parameter types, argument values, and behaviours of the foreign function on the buffers it is given", "why_tests_cant": "types nest, several parameters share one list of buffers that must stay in step before and after the call, and the foreign function can do anything; tests call a few functions with one or two parameters", "anchors": ["src/ffi.c: genObj, readUpdatedObj, libffiFn_c2, storeStructOffsets, ffiTmpAlign, ffiload_c2"]}
{"id": "C82", "title": "A string given as foreign type is accepted exactly if it denotes a type, and as that type", "statement": "Every string given as the type of a foreign argument, result or cast is either rejected with an error or taken for the one type it denotes in the documented notation: scalars, `a`, pointers, arrays, structures, representations after a colon, with `𝕩`, `𝕨`, `>` and `&` before it. No string denotes two types. Parsing ends for every string, and reads nothing behind the end of the string.", "quantifier": "all strings, of any length and nesting", "why_tests_cant": "types nest without bound and whether a colon may follow depends on what surrounds a type; tests have a few types, and a read behind a terminator goes unnoticed", "anchors": ["src/ffi.c: ffi_parseType, readUInt, ffi_parseDecoratedType, parseType_pre, parseType_post"]}
{"id": "C83", "title": "A process started with •SH is given all of its input, and all of its output comes back", "statement": "For every program run with `•SH` and every interleaving of its actions with those of the interpreter: the bytes returned for standard output and for standard error are exactly those that were written, in order; the process reads the given input from the beginning, in order and without gaps, and is told of its end only when it has read all of it; interpreter and process never wait for each other; once both outputs are closed the call ends; and no behaviour of the process ends the interpreter.", "quantifier": "all inputs, all pipe capacities, all histories of the process and all schedules", "why_tests_cant": "how reads, writes and closing fall between the steps of the polling loop depends on the scheduler and on pipe sizes; a test sees one schedule with small data", "anchors": ["src/builtins/sysfn.c: sh_core, sh_c2, shClose", "src/vm.c: cbqn_takeInterrupts"]}
{"id": "C84", "title": "Groups have the lengths and the order of their indices, also where the runtime groups", "statement": "For every list of group numbers, with ¯1 for elements left out, the group lengths which the runtime builds results from are the numbers of elements of each group, for as few groups as contain all numbers and are as many as asked for; and the order of elements puts groups one after the other, each element once and within a group in the order of the argument, whatever memory contained before.", "quantifier": "all lists of group numbers and all numbers of groups asked for, within array size limits", "why_tests_cant": "the storage of lengths depends on whether a number repeats, and positions on all earlier elements; tests try few lists", "anchors": ["src/builtins/sysfn.c: grLen_both, grLen_c1, grLen_c2, grOrd_c2", "src/load.c: runtime values"]}
{"id": "C85", "title": "Reading and writing files gives the whole contents, or an error", "statement": "For all contents and wherever a system call fails: reading a file or stream gives all it contains or raises an error; writing a list of bytes leaves exactly these bytes in the file or raises an error, and raises one only if something is missing; elements that are not bytes are an error; and what was written is read again.", "quantifier": "all contents and lists, all buffer sizes, and failures at every point", "why_tests_cant": "system calls fail in the middle of a transfer only when disks are full or devices break, which tests do not arrange", "anchors": ["src/utils/file.c: stream_bytes, path_bytes, get_chars, file_openWriteClose, file_checkWritten, path_wBytes", "src/builtins/sysfn.c: fbytes_c1, fbytes_c2"]}
{"id": "C86", "title": "Each neither loses nor doubles a value", "statement": "Applying a function to each element of one or two arrays calls it once for every element of the result, in order, with the elements that belong there - also when an argument's storage is overwritten by the results - and every value is released exactly as often as it was held.", "quantifier": "every one or two arguments (atoms, arrays of any rank with agreeing leading axes, storage that may or may not be overwritten, slices), every sequence of results", "why_tests_cant": "Which arguments may be overwritten depends on the reference counts at run time, and a reference too many or too few shows only later, as a leak or as memory that is used after it was freed.", "anchors": ["src/utils/each.c: eachd_fn, eachm_fn, mv, hmv"]}
{"id": "C87", "title": "Combinators make the calls they stand for and release what they hold", "statement": "Before, After, Atop, Over, Choose, Repeat, Under with a left argument and while-loops call their operands in the documented order with the documented arguments, operands that are not functions included, and afterwards exactly the values that were held before and the result are still held.", "quantifier": "all operands (functions or constants), all arguments, with or without a left argument, all sequences of results of the calls, all numbers and arrays of numbers of repetitions, all numbers of turns of a loop", "why_tests_cant": "A reference too many is a leak that no result shows, and one too few is memory used after it was freed, which shows only if that memory is used again; both depend on operands, counts and signs in combinations that examples do not exhaust.", "anchors": ["src/builtins/md2.c: before_c1, before_c2, after_c1, after_c2, atop_c1, atop_c2, over_c1, over_c2, cond_c1, cond_c2, while_c1, while_c2, REPEAT_T, repeat_replace, under_c2", "src/h.h: c1, c2, c1I, c2I, c1iX, c2iWX"]}
{"id": "C88", "title": "A session keeps its variables", "statement": "When lines are evaluated one after another in the same scope, each may add variables; those that exist keep their names and values, new ones have no value until they are set, reading, setting, listing and erasing a variable concern exactly that one, and the values of all variables stay alive.", "quantifier": "all scopes, all sequences of lines with any numbers of new variables, reads, assignments, listings and erasures", "why_tests_cant": "The store is moved each time variables are added, with names behind the values; whether all are moved to the right place, and none is read before it is set, depends on the sizes before and after, in histories of any length.", "anchors": ["src/vm.c: compileBlock, v_set, EXTO, EXTU, listVars, scExt_freeO, scExt_visit", "src/main.c: )erase", "src/vm.h: ScopeExt"]}
{"id": "C89", "title": "An error message shows the line of the error and marks the right characters", "statement": "For an error at any characters of a source, the message gives the number of the line on which the error starts, shows exactly that line, and marks below it exactly the characters of the error that are on that line; nothing outside of the source is read.", "quantifier": "all sources, all positions in them up to their end, all ends not before the start, all paths and all text before the message", "why_tests_cant": "Lines may be empty, first or last, without a newline at the end, and the error may start at a newline or end on another line; the right column depends on what is before the line in the message.", "anchors": ["src/vm.c: vm_fmtPoint, vm_printPos"]}
{"id": "C90", "title": "Command line options are obeyed from left to right, and the rest is the program", "statement": "Options, also several written together, are obeyed in their order with their arguments; the first argument that is not an option is the program (or `-`, or the file given by -f), all that follows are its arguments whatever they look like, and a REPL follows if -r or -s was given; an unknown option is an error after what stands before it was done; whatever the arguments are, none is read that is not there.", "quantifier": "all numbers and sequences of options in all groupings, all codes, files and arguments, all memory limits below 2⋆44 megabytes", "why_tests_cant": "Options can be combined and ordered in unboundedly many ways, and the reading goes through two nested arrays by position.", "anchors": ["src/main.c: main, REQARG"]}
