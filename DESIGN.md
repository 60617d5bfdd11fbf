# Formal model of CBQN: design

## 1. What this is

A Lean 4 model of the parts of CBQN (`/repo`, pinned commit) whose correctness
must hold for every input or every history, and proofs of the properties in
`properties.jsonl` about that model.

Layout (`lean/Verif/<Area>/`):

* `Model.lean`  – transcription of the C functions. Each definition cites file
  and lines in `/repo` and states its simplifications.
* `Spec.lean`   – small independent specification (plain lists, naturals,
  functions), never mentioning the model.
* `Lemmas.lean` – helper lemmas.
* `Props.lean`  – the property theorems, with a non-vacuity `example` next to
  each of them.

Small areas may merge `Spec` into `Props`.

## 2. Trusted base

* Lean 4.33.0's kernel, and the axioms `propext`, `Classical.choice`,
  `Quot.sound`. No other axioms, no `sorry`, no `native_decide`/`bv_decide`.
  `AXIOMS.md` lists the axioms of each theorem named in `MANIFEST.json`.
* The transcription from C to Lean, done by hand. The comments with line
  numbers make it checkable by reading.
* C semantics as used in the transcription: fixed-width unsigned arithmetic
  wraps (`BitVec`, or `Nat` with explicit `%`), two's complement for signed
  casts. Signed overflow and out-of-range accesses are either distinct
  outcomes of the model, or shown not to happen.
* Default build configuration: 64-bit x86, `usz = u32` (`USZ_64` not set),
  `BYTECODE`-interpreted VM, Singeli disabled (the generic C paths). Singeli
  sources, the JIT (`src/jit`), the FFI, the REPL, the BQN-level compiler and
  runtime (`src/gen`), and file/OS interaction are not modelled.

Memory is modelled at the level each property needs: lists with `Option`
reads where bounds safety is the claim, heaps as finite sets of blocks for the
allocator and collector, pure lists where the claim is functional.
Floating-point numbers are not interpreted bit by bit except for the NaN-box
classification (C01); elsewhere only integer-valued numbers appear, and the
fact that doubles represent integers up to 2^53 exactly is trusted.

## 3. Plan per property

| id | modelled | how it is proved |
|----|----------|------------------|
| C01 | tag tests of h.h on `BitVec 64` | arithmetic on `toNat` (omega) |
| C02 | `utf8lenb`, two-pass decoder with Option reads | induction on the remaining bytes |
| C03 | `utf8_w`, `utf8lenB`, decoder | per-character round trip, induction on the list |
| C04 | open-addressing template as an array with probing | invariant (no empty slot between home and entry), refinement to a finite map over histories |
| C05 | •HashMap slot array, key and value lists | sorted-by-hash invariant, refinement to an insertion-ordered association list |
| C06 | the same, with out-of-bounds as a distinct outcome | invariant bounding displacement, resize bound |
| C07 | buddy allocators: alloc/split/free | invariant on the set of blocks (aligned, disjoint, cover) |
| C08 | merge pass, heap accounting | the same invariant preserved by merging, sum of sizes |
| C09 | object graph with reference counts and the three passes | invariants over traversals; counts equal in-degree |
| C10 | the same | marked set = reachable set |
| C11 | OR-accumulated range tests of squeeze.c | bitwise range characterisation, induction on the list |
| C12 | `el_or`, in-place append | finite table for types; list semantics for append |
| C13 | checked typed loops and their widening chain | exactness of each width, induction on the list |
| C14 | mask path of `\|` | two's complement and `% 2^k` |
| C15 | `bit_cpy` on a word memory | bitwise characterisation of each store, induction on words |
| C16 | `bit_reverse64`, `reverse_c1` bit path | byte/nibble/pair swaps as index permutations |
| C17 | per-word scan kernels with carry | per-word lemma, induction on words |
| C18 | bit fold shortcuts | characterisation of first-bit position, parity, popcount |
| C19 | blocked sum | bounds on partial sums; equality with the integer sum |
| C20 | `compareF` on nested arrays | structural induction |
| C21 | Timsort template and boolean grade | permutation, sortedness and stability invariants |
| C22 | binary search of the bins code | loop invariant |
| C23 | sparse/dense where and compress loops | loop invariants over the words |
| C24 | replicate loops, /⁼ | induction, counting lemmas |
| C25 | `WRAP`, blocked range check with narrow index types | modular arithmetic at each width |
| C26 | `select_replace` | induction over the indices |
| C27 | `WRAP_ROT`, rotate copies | modular arithmetic on indices |
| C28 | transpose loops, axis permutation | index arithmetic |
| C29 | group_simple passes | counting/prefix-sum invariants |
| C30 | table, brute-force and hash loops of search.c | invariants of the tables |
| C31 | the same for selfsearch.c | invariants of the tables |
| C32 | `gcd_u64`, `lcm_u64` on wrapped 64-bit words | loop invariant `Nat.gcd` |
| C33 | Fisher–Yates, sparse hash shuffle, Floyd | permutation / distinctness invariants for every random stream |
| C34 | bytecode tables, stack-height check, evaluator's pops and pushes | simulation: checked height = real height |
| C35 | gStack/envs/catch stacks as a machine | invariant over traces |
| C36 | size computations with `usz` wrap | exactness under the checks; counterexamples where the check is missing |
| C37 | typed scan loops with early exit to a wider type | prefix invariant at each width |
| C38 | blocked •math.Sum for integers | bounds on the partial sums; counterexamples where the offset wraps |
| C39 | typed product/min/max folds | exactness of each step, induction on the list |
| C40 | character plus/minus integer loops | range test equals validity; counterexample for the undefined overflow |
| C41 | •rand.Range for one and many numbers | masks and multiplications as natural numbers, for every random stream |
| C42 | reshape_cycle, reshape_one, fill_words and bit_cpy within one array | memory as bits; periodicity of the filled prefix as the invariant of every doubling loop |
| C43 | take_c2, drop_c2, takedrop_highrank, m_fillG and m_copyG for bits and elements | an index is copied exactly if its distances from where the copied part begins are below the lengths; the counters as mixed-radix digits of the number of the copy |
| C44 | bitwiden, bitnarrow, widenBitArr, narrowWidenedBitArr, toIntCell, select on widened cells | bits of each padded cell; invariant of the bit writer; doubles below 2^62 are neither NaN nor -0 |
| C45 | equal, eequal, the typed comparison loops and their table, decomposeEqual | a heap of objects; each of the 64 entries against equality of elements; induction over the depth |
| C46 | bqn_hash, bqn_hashObj, bcl, asNormalized, wyhash | matching arrays squeeze to the same type (C11) and the same bytes; wyhash reads past the key only under a mask; induction over the depth |
| C47 | shift_check, the four shifts, reverse_c1 with its cell widths | copies and fills of C43 at multiples of the cell size; multWidthLog gives at most 6 only for a cell of that many bits; loop invariant over the items |
| C48 | transp_c2 for lists 𝕨: axes of the result, strides, merging of axes, the four ways to copy | merging keeps the offset of every element (mixed radix); strides of kept axes are multiples of the cell; counters are the digits of the piece; every copy is of a whole cell to its place, and every cell gets one |
| C49 | bitcast_impl, types and shapes, memory as 64-bit words | an array and its memory have the same bits; a conversion keeps them; elements read from memory have those bits again |
| C50 | bitop1, bitop2: widths, pairing of arguments, word loops, loops per width | loop invariants over memory, bit by bit; pieces as numbers; products of signed numbers modulo 2^w |
| C51 | comparisons: tables of typed loops, conversion to one type, scalars, leading axes, recursion | result tied to an inductive relation on trees; every path by its own lemma, then induction on depth |
| C52 | eachd_fn with an operand in any lawful monad | equality of monadic programs: nested loops are one traversal of the indices |
| C53 | ApdMut (appends with change of element type and fill) and bqn_merge | invariant over appends: memory written so far, type, fill; then by cases on the shape of the cells |
| C54 | the generic loops of Cells and Rank with one and two arguments, the choice of the ranks, and empty frames, for operands in any lawful monad | the state before cell i in closed form; then the loop is mapM over the cells |
| C55 | Fold, Insert and Scan with and without an initial value, with their short cuts for tacks, `∾`, constants and arithmetic, for operands in any lawful monad | loops as folds over the cells taken from the end; arithmetic on cells of one shape as a zip of elements, so that all ways become the same fold; the queue of the last cell for Scan |
| C56 | the functions that Cells and Rank recognise and don't call on each cell: `⊣ ⊢ < ⊏ ⊑ ≍ ⥊ » « ⌽ ∧ ∨ ⍷ ⍋ ⍒ ⊐ ⊒ ∊ ≍⁼`, constants, `´`, `˝` and `` ` `` with one argument, and `⊣ ⊢ ≡ ≢ ⊏ ⊑ ≍ » «` and constants with two. Not `⍉`, `𝔽˘`, `↑`, `↓`, dyadic `⌽`, `⊏` with an array, and arithmetic | each branch in closed form over the cells, and one lemma for what calls on each cell give when the results have one shape; conditions as predicates, the exceptions as theorems |
| C57 | `∾𝕩` for arrays with elements of every rank: the loop over a list, the checks of each axis with their buffers, and moving the elements with both counters. Not empty arrays and fills | the invariant of the checks is that everything found so far fits along the axes done, which decides both directions; the counters as digits of a number; memory as a set of writes, which are consistent and cover everything |
| C58 | `tbl_c2` with its ways for `⊣`, `⊢`, constants and pervasive functions, `each_c1` with `eachm_fn` in place or in a new array; the reference count of an operand that is an array. Not fills | loops as `mapM` over all pairs in any lawful monad; pervasive functions are pure, so that calls on lists are calls on elements; cycling and replicating give the two sides of the pairs |
| C59 | `⍟` with the bounds of numbers in booleans, typed arrays and nested arrays, the memory of results that is addressed from the middle, and the replacement; `•_while_`. Not reference counts | bounds are folds of minimum and maximum; the loops write a chain of calls to memory at different places; every number that is looked up is within the bounds |
| C60 | `⊑` with the wrapping of 64-bit numbers, the position modulo 2^32, and nested indices in all storage types; `◶` with an operand with effects. Not squeezing, not error messages | mutual induction over the nested index; the position modulo 2^32 is the index in row-major order since it's less than the number of elements |
| C61 | the counting loop and the cutting loop of `path_lines` with the decoder of C02, what `•file.Lines`, `Chars` and `Bytes` write, and `At`, `Name` and `Parent` for Unix. Not the operating system | induction over the lines (an inductive relation that is shown to be total and unique); bytes below 128 occur only in the encoding of the same character |
| C62 | `v_set`, `v_seth`, `v_get` with lists, arrays, aliases, constants and namespaces, over one store of all variables; `SETN` `SETU` `SETM` `SETC` `SETH` `VARO` `FLDG`. Not reference counts, not the compiler | mutual induction over the target against a relation that says which variables are bound to what; a second relation for the value of a target; two runs that differ in taken variables end in the same store |
| C63 | `fn_uc1` and `fn_ucw` of ⊢ ⊑ ⥊ ⌽ < ⋈ ≍ ↑ ↓, trains, `∘` and `⊸`, with `𝔽` in any monad and any storage of elements; Select and Rotate as in C26 and C27. Not fills, nor the runtime's own Under | for each function: what it sees of `𝕩`, and that the code gives the only value that sees the result of `𝔽` and keeps the rest; a lemma for one after the other; induction over compositions |
| C64 | Instructions on variables, targets and headers; `compileBlock`: the merge of both lists, the map of bodies, copies of arguments for predicates; `gotoNextBody`, `execBlock` and the kinds of calls | simulation between the code with copies and the code as written, in any monad with errors; invariants of the merge; induction over the bodies |
| C65 | `↕𝕩`: the product with overflow, least and greatest length, the recursion for each width, the loop over a word for lengths 1 and 2; the list for a number in each width | the counter of the word holds the digits of the position at the unmasked bits, by induction over the bits; the recursion gives the index, by induction over the shape |
| C66 | `𝕨↕𝕩`: the shape in 32 bits, the empty result, pairs, the loop for one axis, the counters, strides and offset for more | the strides that the loop finds are those of `𝕩` (`Walk`); one step of the counters moves the offset to that of the next index; induction over the parts that are copied |
| C67 | `𝕨⍷𝕩`: the loop over `𝕨` with the early end and the change to single places, the empty result, rows of a table; reads outside of the arrays are an outcome | invariant of the loop: after `n` elements a bit is 1 exactly if the first `n` match; the rest by cases over shapes |
| C68 | `fork_c1`, `fork_c2` with their variants, `tr2D`, `val over atop before after cond`, `const swap`, `c1 c2 c1iX c2iWX`: the references held per object and a state of any type; other functions are parameters. Not Under, Repeat, Catch (C63, C57, C35) | a rule for each combinator from what is held before to what is held after, shared by both directions; induction over the depth for soundness, over the derivation for completeness |
| C69 | `affixes` with its loops in 32 bits and the length of the result as `M_HARR` takes it; slices of lists of any elements | the loop gives the list of slices; products below `2⋆32` don't wrap; each slice read by the index of the cell |
| C70 | `join_c2` with `arr_join_inline`, shapes read before or after reuse; elements as lists, atoms as units; not fills | the loop compares the ends of both shapes; cases of ranks; indices of an append |
| C71 | `import_c1` and `import_c2` over programs as trees of effects, imports and catches, files as programs; the map of values by path as a function | the log of what happens at imports is accepted by an automaton per path, kept by induction over programs and nesting; consequences by induction over logs |
| C72 | `scope_dec`, `scope_decF`, the free functions of scopes and blocks, `dec`; objects with names, counts and references, the pending calls of C as a list | invariant of the freeing loop: each count is the number of references from the roots, the pending calls and the objects that are not being freed, and one more for the scope that is freed early; counting of the blocks that are held once; induction over histories |
| C73 | `str2gid`, `m_nsDesc` with its arrays, the searches by number, the cache of `pos2gid`, `name_normalize`; the hash table as a function (C05) | the table and the list of names are inverse to each other and only grow; the search over numbers is the search over names; induction over histories |
| C74 | Values as stored, with four ways of storing an array and a fill; the prototype, the comparison of fills, giving an array a fill, the fill of two arguments, one-element and empty arrays. | Mutual induction over values and lists of elements, against prototypes of values without how they are stored; a well-formed fill is blank, so typed arrays can be compared by type alone. |
| C75 | Index arrays with shapes, and the code that checks and wraps them, folds them into starts by Table, takes a last range as one block, and copies spans into a result of a length kept in 32 bits. | Induction over the axes: starts have at the ravelled index the ravelled position; both ways of forming spans meet one specification of where each element comes from. Negations as general theorems with concrete arguments. |
| C76 | `invertW`: 𝕨 checked, the axes it leaves out filled in, and the permutation inverted; then Reorder Axes (C48) with that permutation. | The filled-in list is a permutation; the computed list undoes it, so an element moved there and back is where it was, for every index. |
| C77 | `underSlash`: the counts checked, `𝔽` applied to the given `𝕨/𝕩`, its result checked and, for counts above 1, cut down to one element for each place, then the loop that blends old and new elements, in new memory or in that of 𝕩; `blendObj` is the one for objects, with every increment and decrement recorded. | Invariant of the loop: before position k the result is as wanted, from k on it is still 𝕩, and the number of elements used is the rank of k. For references, a count of the events for each object. |
| C78 | `mon`: the case for atoms, `typed` with the loop of each function for each storage type (`subLoop`, `absLoop`, `signI`, with `none` when a result does not fit, after which `recm` goes over the elements as doubles), the squeeze before `¬`, and the recursion into nested arrays. | Each loop gives the values of the function or `none`; then induction over the value. Results are again sound values, so the functions compose. |
| C79 | `rnd`, rounding of rational numbers to p bits; `floordivAA` and `floordivAS`, the quotients rounded down with each rounding of the C code, and storing them as integers with the undefined cases; `modAA`, `modSA`, `modAS`, and `pfmod`. | Rounding has relative error at most 2^-p and keeps integers below 2^p. A quotient of integers is at least 1 over the divisor away from an integer, or half of that after the offset is added, which is more than all the rounding errors together. |
| C80 | `genObj` without source objects, `readAny` and its parts, `ty_equal` and pointer objects over a byte memory | mutual induction over types and their fields: frame lemmas (which bytes change, which are read), then the round trip and the exact set of accepted values; `write_overruns` shows the 8-byte copy changing the next element |
| C81 | layout of types, temporary places, choice of arguments, `genObj` with source objects, `readUpdatedObj` and the loops around the call; the foreign function is an arbitrary function of the buffers | mutual induction over types for layout and for the number of objects; induction over parameters, keeping the objects made and taken in step; witnesses for the 32-bit sizes and for pointer objects |
| C82 | `ffi_parseType`, `readUInt`, `ffi_parseDecoratedType` on lists of code points, with reads behind the terminator as an outcome | the notation is specified by recursion over types; soundness by induction over fuel, completeness by mutual induction over types with a set of possible following characters, fuel shown to suffice |
| C83 | the polling loop of `sh_core` with three pipes as a transition system; events of the process come between any two system calls, and the kernel chooses how much is transferred | invariants by induction over histories, with what was written and read computed from the history alone; termination by a measure that process events do not raise |
| C84 | `grLen_both`, `grOrd_c2` as loops over lists with bounds checks | counts by induction over the indices; positions by an invariant over the part already placed, with places shown distinct |
| C85 | `path_bytes`, `stream_bytes`, `get_chars`, `path_wBytes` over streams whose system calls can fail at every point | induction over what the system gives and over the calls it answers; defects with witnesses for all contents |
| C86 | `eachd_fn` and `eachm_fn` (src/utils/each.c 5-126): disclosing, the choice of storage to overwrite, the seven loops of two arguments, the four kinds of storage of one, as operations on a ledger of owned references; misuse is `none` | induction over a loop with the owned references and the slots not yet visited as invariant; nested loops by induction over the shorter argument; then the cases |
| C87 | the combinators of src/builtins/md2.c 98-206 and the calls of src/h.h 698-729 as operations on a ledger of owned references and a record of calls | a call takes its arguments out of the ledger and adds its result; loops by induction over the turns with what is held besides as invariant |
| C88 | the extension of a scope by a line (vm.c 236-264), reads and writes of the added variables, their listing and erasure, with memory that is not set and accesses out of bounds as failures | refinement of a list of variables; the store is values followed by names; induction over the operations |
| C89 | vm_fmtPoint and the fallback in vm_printPos (vm.c 1344-1371, 1397-1409), loop by loop, with reads out of bounds as failures | the source is split into whole lines, the line and the rest (every position has such a split); each loop by induction over the part it goes through |
| C90 | the reading of argv in main (main.c from 920), with positions in argv, and a crash for arguments that are not there | options are written to words by a small grammar and read back: induction over the groups, with what was read before as prefix |

Defects found while reading are proved as negations with concrete witnesses
and listed in section 5.

## 4. Not modelled

* Singeli kernels, the JIT compiler, the parser and compiler (they are BQN code), the
  formatter, `•Show`, and of main.c all but the command line (C90) and `)erase` (C88).
* Floating-point formatting, rounding in arithmetic, trigonometric and other libm functions.
* System functions other than shell calls (C83), files and streams (C61, C85), imports (C71) and
  fields (C73); of the foreign function interface only what C80-C82 list; signals other than
  SIGPIPE in C83.
* Errors in the middle of a builtin, where the ledger of references is concerned: C86 and C87
  are about calls that return. What an error does to the stacks is C35.
* Threads: CBQN has none.
* Allocation failure, other than the size checks in `Sizes`.

## 5. Findings

Places where the code does not do what the property says. Each has a theorem
with a concrete input about the model of the function named. Sizes are for the
default 32-bit `usz`; many of these need arrays of 2^28 elements or more.
Those marked (small) need little memory.

Result sizes that wrap (C12, C24, C25, C29, C36):

* (small) `65537‿65537‿⌊⥊↕131073` has a shape of 2^32+2^17+1 elements and memory
  for 131073: `good` is set for `⌊` (sfns.c 277) – `Sizes.reshape_floor_wraps`.
* (small) `∾65536⥊<65536⥊0` allocates nothing and copies 2^32 elements:
  `cam` and `cam*csz` (sfns.c 785-838) – `Sizes.join_many_wraps`.
* (small) `∾256‿256⥊<256‿256⥊0` has shape 65536‿65536 and no memory: `shProd(st)`
  (sfns.c 935) – `Sizes.join_array_wraps`.
* (small) `∾⟨0,(255⥊1)⥊0⟩` reads before a null pointer: the rank difference
  is computed in 8 bits (sfns.c 804-808) – `Sizes.join_rank_wraps`.
* (small) `2↑0‿65536‿65536⥊0` has 2^33 elements by its shape and no memory: the
  cell size of an empty array wraps – `Sizes.take_empty_wraps`; lengths of
  2^32 or more are truncated when another axis is empty – `Sizes.take_axis_wraps`.
* `𝕨≍𝕩` uses `ia*2` (sfns.c 1081) – `Sizes.couple_wraps`.
* `𝕨⊏𝕩` uses `wia*csz` (select.c 461) – `Select.select_writes_outside`;
  cells of 512 MB or more – `Select.select_large_cells_uninitialised`.
* `(67108864⥊0)⊏2‿33⥊0` selects cells padded to 64 bits and the padded size wraps
  to 0 (select.c 461) – `Widen.select_widened_writes_outside`; `∊67108865‿33⥊0`
  wraps in `cam*ncsz` (bits.c 271) – `Widen.widen_writes_outside`.
* `csz<<meb` (search.c 171) wraps for cells of 512 MB, and searches compare single
  bytes – `Widen.search_wraps`.
* `𝕨/𝕩` uses 32-bit products (slash.c 678, 717, 755, 829) –
  `Rep.replicate_all_writes_outside`, `Rep.replicate_writes_outside`,
  `Rep.replicate_length_wraps`.
* `𝕨⊔𝕩` uses `l*cw` (group.c 47) – `Group.group_writes_outside`.
* Appending to a list of 2^32-1 elements, and joins without a size check –
  `Append.append_writes_past_end`, `Append.join_writes_past_end`,
  `Append.join_loses_elements`.
* Temporary buffers: radix sort of 2^30 integers
  (`Sort.sort_integers_overflow`), self-search marks
  (`SelfSearch.mark_firsts_overflows`), •rand.Range
  (`Rand.range_writes_outside`), `2^k|𝕩` (`Arith.mod_pow2_uninitialised`).

Wrong results or undefined behaviour for arguments in range:

* (small) Indices into arrays with empty cells are not checked
  (`Select.select_empty_cells_unchecked`), and under select aborts
  (`Under.under_select_empty_cells_fatal`).
* (small) `u8 cwidth` (select.c 793) truncates: under select accepts a shape it
  must reject and rejects one it must accept
  (`Under.under_select_wrong_accept`, `Under.under_select_wrong_reject`).
* (small) `-´` with the initial value ¯2147483648 negates it in 32 bits
  (`Fold.fold_sub_init_undefined`).
* (small) Character arithmetic adds in 32 bits before the range test
  (`Arith.chr_add_undefined`, `Arith.chr_add_scalar_undefined`).
* (small) •math.Sum of an integer list near the 64-bit limits wraps or does not
  return (`Sum.math_sum_offset_wraps`, `Sum.math_sum_never_returns`).
* (small) An empty array keeps its "squeezed" flag when appended to in place
  (`Append.stale_squeezed_flag`, `Squeeze.squeeze_chr_try_empty`).  Such a list does
  not have the hash of the lists it matches, so it's not found by searches over
  lists of lists (`Match.stale_flag_hash`).
* (small) •HashMap `Set` that fails leaves a map without a table
  (`HashMap.hashmap_broken_after_error`).
* (small) `•rand.Range` of a number above 2^53 can return the number itself
  (`Rand.range_one_reaches`); `•rand.Deal` of 2^29 numbers copies with an
  overflowing `int` (`Rand.deal_copy_undefined`).
* (small) Rotation by ¯2⋆63 is accepted but cannot be undone
  (`Rotate.rotate_no_way_back`).
* Searches in lists of 2^31 or more elements
  (`Search.index_of_long_wrong`, `SelfSearch.classify_limit_wrong`).

Bytecode and collector:

* Stack heights computed when a block is loaded are too small for predicates,
  namespaces and checks (`Vm.predicate_exceeds_reserved`,
  `Vm.namespace_exceeds_reserved`, `Vm.check_below_base`), counts of list
  instructions can be negative (`Vm.list_count_negative`), unknown
  instructions are accepted (`Vm.unknown_instruction_accepted`), and loading
  may read past the end (`Vm.compile_reads_past_end`).
* The collector's loop over the bodies of a block uses a 16-bit counter
  (`Gc.many_blocks_freed`).
* The hash-table template does not terminate with a table of two slots
  (`HTab.small_table_hangs`); no caller in the repository makes one.

* Filling a boolean array up to a multiple of 64 elements, as `64↑1‿1` does,
  reads and writes back unchanged the 8 bytes after its last word
  (`Take.fillBits_word_after`; mut.c 177-193).
* Reorder Axes marks axes without a length by 2^32-1, so an axis of that length
  isn't counted as repeated (`Reorder.reorder_dup_missed`; transpose.c 289-298).
* `•bit`: `_cast` computes the number of elements of the result in 32 bits
  (`BitFn.cast_count_wraps`; bit.c 79-100), and takes characters in a generic
  array for numbers (`BitFn.cast_boxed_chars`; bit.c 27-29); the other
  functions keep the number of bits in 32 bits, so that for arguments of 512 MB
  the result is written outside of its memory (`BitFn.bits_not_allocated`,
  `BitFn.two_not_allocated`; bit.c 203, 289); products of 32 and 64 bits are
  signed overflows (`BitFn.mul_undefined`; bit.c 341-361).

Comparisons (C51):

* (small) characters from code 2^31 on, made by `•bit._cast`, are ordered as
  negative numbers when two arrays of four-byte characters are compared, and as
  large ones otherwise (cmp.c 73) – `Pervade.characters_signed`.

Cells and Rank (C54):

* (small) the number of cells of an empty array is a 32-bit product that wraps,
  and reshape makes such arrays: `{5}⎉1 65536‿65536‿0⥊0` gives an array of shape
  65536‿65536 without elements, and with 6‿715827883‿0 two elements are stored
  under a shape for 2^32+2 (cells.c 433-625) – `Cells.wrapped_to_none`,
  `Cells.wrapped_to_two`.

Insert (C55):

* (small) `+˝ 0‿65536‿65536⥊0` gives an array of shape 65536‿65536 without
  elements, and `+˝ 0‿641‿6700417⥊0` one with a single element: the size of a
  cell wraps (fold.c 533) – `Insert.identity_without_elements`,
  `Insert.identity_of_one_element`; `∾˝ 65536‿65536‿0⥊0` has shape 0‿0
  (fold.c 602) – `Insert.join_wraps`.

Functions that Cells and Rank recognise (C56):

* (small) `∾˝˘ 3‿1⥊↕3` has shape 3‿1, where `∾˝` of each row would make it a list
  (fold.c 656) – `Known.join_keeps_axis`.
* (small) an array as the identity is put in as an element: `+⌜˝˘ 3‿0⥊0`
  (fold.c 673-687) – `Known.identity_boxed`.
* (small) `{𝕨-𝕩}˝˘ 0‿0⥊0` is an error although there are no rows
  – `Known.identity_missing`.
* (small) `+˝˘ 65536‿0‿65536⥊0` gives shape 65536‿65536 without elements
  – `Known.identity_wraps`; `⥊˘ 0‿65536‿65536⥊0` has shape 0‿0 –
  `Known.shape_wraps`.
* (small) `⥊⎉0` on an array of rank 255 allocates a shape of length 0 and writes 256
  lengths (cells.c 449) – `Known.shape_rank`; `≍˘` of two such arrays has rank
  256, kept in 8 bits (cells.c 28-37) – `Known.couple_rank`.
* `a≍˘a` for a list of 2^31 booleans (256 MB): the number of elements wraps to 0
  (transpose.c 117) – `Known.couple_wraps`.
* `«⎉1` on one nested row of 2^31+1 elements sets element 1 to the fill as well,
  since a 32-bit position wraps (cells.c 306-309) – `Known.shift_again`.

Join (C57):

* `∾ 2‿1⥊⟨3‿4⥊0, 5‿3‿4⥊1⟩` is refused although the elements fit: `shcpy` copies
  forward and source and destination overlap (sfns.c 909, stuff.h 171-173), so the
  test shape is `_‿3‿3` – `Join.overlap_refuses`.
* `∾ 2‿1⥊⟨3‿4⥊0, 5‿3‿3⥊1⟩` is accepted for the same reason, and the loop that moves
  rows doesn't come to the exact end of the element: it reads and writes outside of
  the arrays – `Join.overlap_accepts`.
* (small) `∾⟨0, (255⥊1)⥊0⟩` dereferences a null pointer: the difference of ranks is
  kept in 8 bits (sfns.c 814-820) – `Join.list_rank_255`.
* (large) The number of cells of the result is a product of lengths computed in 32 bits
  (sfns.c:935), and only its product with the cell size is checked. `∾` of four
  times an array of shape 2⋆15‿16, at 2‿2, has shape 2⋆16‿17 and no elements –
  `Join.join_wraps`.

Table (C58):
* `w "abc"⌜ x`, with an operand that is an array: md1.c line 88 is
  `reshape_one(ria, f)`, which takes over a reference to `f` that belongs to the
  derived function (line 54 for Each has `inc(f)`). After the result is freed the
  operand is freed although the derived function refers to it; using it again reads
  freed memory – `Table.table_loses_operand`.

Pick (C60):

* (small) An empty array with other than one axis in 𝕨 of `𝕨⊑𝕩` is taken as the
  index of a unit if it's stored as booleans, characters or boxed, and refused if
  it's stored as integers or floats (sfns.c 434-443) – `Pick.pick_empty_depends`.

File (C61):

* (small) `•file.Bytes` writes a character or integer that isn't a byte as its low 8
  bits, without an error (file.c 228-246): `@+300` as `@+44` –
  `File.bytes_truncated`.

Assign (C62):

* Reading a field of a namespace doesn't check whether the variable has a value
  (`FLDG`, vm.c 900-905, and `ns_getU`), as reading the variable does. After an `F↩`
  that failed, or while it runs, `n.a` gives the internal mark `bi_optOut` as a
  value: `n←{a⇐1 ⋄ Go⇐{a {!0}↩}} ⋄ n.Go⎊0 @ ⋄ n.a` – `Assign.field_leaks`.
* `⟨[b]⟩←n` with a namespace `n` takes the target `[b]` for an alias (vm.c 564-567
  asserts that each object is one), and reads a field number after the end of the
  object – `Assign.merge_in_fields`.

Lens (C63):

* `𝕨 𝔽⌾𝔾 𝕩` makes `(𝔾𝕨)⊸𝔽` (`under_c2`, md2.c 179-184), so if `𝔾𝕨` is a function
  it is called with `𝔾𝕩` and `𝔽` gets its result – `Lens.under_calls_left`.
* `𝔽⌾(⟨⟩⊸⊑) 1‿2` calls `𝔽` with `⟨⟩` and gives `1‿2`: no index is a bad one in the loop
  of `pick_ucw` (sfns.c 1437-1441) – `Lens.under_pick_empty`.
* `atopM2_uc1` (derv.c 134) passes `g, h, o` to `def_m2_uc1`, which takes `o, f, g`.
  `𝔽⌾(g∘h)` for a `g` or `h` that isn't a function is `g⌾(h∘𝔽)` –
  `Lens.under_atop_swapped`.

Bodies (C64):

* `no_match_reads_past`: `gotoNextBody` reads `sc->vars[2]` to choose the message when no body applies. A block that is run at once, such as `{0?1}`, may have fewer than three variables; what is read is then outside the scope.
* `copies_wrap`: `compileBlock` checks that there are fewer than `2⋆16` variables, but with a predicate the copies of the arguments are added to that after the check and the sum is stored in 16 bits. The scope is then smaller than the arguments that are written to it.

Windows (C66):

* `long_axis_refused`, `long_axis_empty`: `ud_c2` adds one to the length of the axis in 32 bits. `1↕4294967295‿0⥊0` is an error, and `0↕4294967295‿0⥊0` has the shape `0‿0‿0` where the number of places is `2⋆32`.
* `pairs_refused`: `2↕𝕩` makes `2/𝕩` first, so it's an error for `2⋆31` elements though the result has only `2⋆32-2`.

Find (C67):

* `find_frame_refused`: `⟨1⟩⍷65536‿65536‿0⥊0` is an error for memory though its result is empty: the leading axes are multiplied before the others are known.
* `find_wraps`: `⟨⟩⍷𝕩` for `2⋆32-1` elements adds one in 32 bits and returns an empty list.

Trains (C68):

* `fork_modifier_differs`: `(m G H) 𝕩` with a modifier value `m` returns `m G H 𝕩` if `G` and `H` are functions, but is the error "Calling a modifier" if one of them isn't.

Prefixes and suffixes (C69):

* `affixes_wraps`: `↑𝕩` for a list of `2⋆32-1` elements (512 MB of bits) makes a result with room for no elements, since `M_HARR` takes the length `2⋆32` in 32 bits, and writes to it.

Join To (C70):

* `join_length_wraps`: `𝕨∾𝕩` for shapes `⟨2⋆32-1,0⟩` and `⟨2,0⟩` has the shape `⟨1,0⟩`.

Namespaces (C73), not modelled:

* `vm.c` line 393 sets `vam*2` entries of `varData` to -1, but there are `finalVam*2` of them, which is more when a body has a predicate and so gets a second set of arguments. The rest stays uninitialised in bodies compiled without names.
* `m_nsDesc` writes at `i+off` without checking that this is below the number of variables.

Fills (C74):

* Fills that are empty arrays of one shape count as the same, whatever their own fills are (`Fills.empty_fills_match`), so of a fill `⟨⟩` and a fill `""` the result keeps the one that it had, or the right one. `≡` says that these match, so this isn't counted as a defect.

Select along several axes (C75):

* `⟨1024⥊0,1024⥊0⟩⊏1‿1‿4096⥊'a'` writes 2⋆32 elements to a new array of length 0: `m_arrp_copyFill` passes a 64-bit length to `m_tyarrlbp`, which takes 32 bits, and nothing checks it before (`Axes.large_result_writes_outside`, `Axes.large_result_example`).
* The number of elements is a product in 64 bits. `(4⥊<65536⥊0)⊏1‿1‿1‿1⥊0` gives an array that has no elements and the shape `65536‿65536‿65536‿65536` (`Axes.count_wraps`).
* `⟨0‿1,⟨0⟩⟩⊏2‿3‿0⥊0` reaches `assert(IA(x)!=0)`, which is undefined in release builds (`Axes.empty_cells_undefined`).

The inverse of Reorder Axes (C76):

* `{3}⌾(0⊸⍉)𝕩` gives `<3`, although `0⍉` is an error for an array without axes: the inverse of the number 0 is the empty list, which is good for every rank (`Unorder.under_zero_unit`).

Arithmetic with one argument (C78):

* `-0` on an atom gives a zero with the sign bit set, while `-` on an array of doubles computes `0-v` and gives one without. The theorem compares numbers as equal, so this is allowed; `÷` hides the difference by adding 0 first.

Modulus (C79):

* `mod_rounds_up`: `1|¯2⋆¯60` is 1, because `r+b` in `pfmod` is rounded, although a remainder should be less than the modulus. It cannot happen for integers.

Foreign memory (C80):

* `genObj` copies 8 bytes for every reinterpreted scalar, whatever its width
  (ffi.c 799, with a `TODO` there).  Writing one `u8:u1` overwrites the 7 bytes
  after it with whatever follows the converted array (`write_overruns`).
* A `Write` of a structure which fails at one field leaves the fields before it
  written (`fail_writes`).

Foreign calls (C81):

* If a pointer object is passed for an argument of type `&u8`, `&{…}` etc.,
  `readUpdatedObj` (ffi.c 903-932) reads that namespace as if it were the array or
  buffer made by `genObj` (`mutable_pointer_ub`).
* `structSize` has 32 bits (ffi.c 249, 409): `[65536][65536]u8` has the size 0
  (`size_wraps`).  `ffiTmpAlign` has 32-bit parameter and result (591-595), so a
  parameter whose size is close to 2⋆32 gets no place (`plan_wraps`).
* The size of a buffer of structures is a product of 32 bits (779-780):
  65536 structures of 65536 bytes get 4 bytes (`buffer_short`).

Foreign types (C82):

* A type which ends with a colon, such as `i32:`, makes `ffi_parseType` take the
  terminator for the letter and read behind it (ffi.c 544-545; `colon_overreads`).
* The letter after a colon is stored in a `u8` (ffi.c 544), so `u16:𝕩8` is accepted
  as `u16:i8` (`letter_wraps`).

Processes (C83):

* `•SH` does not ignore `SIGPIPE`, and nothing else in `src` does.  A process which
  closes its standard input before reading all of it (`head`, `true`) can have the
  interpreter killed (sysfn.c 1123; `sigpipe_kills`).
* When both outputs are closed the loop ends although input is left, and the process
  is told that its input is at its end (sysfn.c 1136, 1146; `input_cut`).
* If `poll` fails because a signal was handled, what has been read so far is taken
  for all of the output (sysfn.c 1116; `output_cut`).

Groups in the runtime (C84):

* With an empty index list, the number of groups asked for goes through a `usz`, so
  2^32 groups become none (sysfn.c 162; `length_wraps`).

Files (C85):

* `file_openWriteClose` does not use the result of `fclose`, so that a failure to write
  the last buffer is not reported (file.c 254; `flush_unchecked`).
* `stream_bytes` takes a failing `fread` for the end, also when a program is read from
  the standard input (file.c 106; `stream_error_unseen`).
* `•file.Bytes` writes the low eight bits of characters and numbers that are not bytes
  (file.c 242; `byte_narrowed`), and converts other numbers with an undefined cast
  (`number_ub`).

Variables of a session (C88):

* `scExt_visit` and `scExt_freeO` (`src/vm.c` 1144 and 1110) compute the number of values and names as
  `u16 am = c->varAm*2`.  A scope may have up to 65535 variables, and with 32768 or more added ones the product does not
  fit: with 32768 no variable is visited, so that the next garbage collection frees values that variables still hold
  (`none_visited`, `many_accepted`); when the scope is freed, they leak.

Command line (C90):

* `-M` (`src/main.c`) refuses numbers only when the digits before the last are more than 2⋆48, and then multiplies by 2⋆20
  in 64 bits: from 2⋆44 megabytes on the product wraps, and `-M 17592186044416` sets a limit of 0 (`limit_wraps`).
* When the program is started with an empty list of arguments, without even its name, `main` reads `argv[1]`, which is the
  first variable of the environment (`no_name`); with a name, nothing outside of the arguments is read (`no_crash`).

Noted while reading, not modelled: in release builds `gsReserve`
(gstack.h 15-27) does nothing, so running out of value stack is a memory fault
rather than an error; `¯2⋆63` as the left argument of take and drop overflows
when negated; `widenBitArr` has a 32-bit product (utils/bits.c).
