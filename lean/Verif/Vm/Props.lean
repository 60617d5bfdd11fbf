import Verif.Vm.Run
/-! # C34: a body that the compiler accepts keeps to its part of the value stack -/
namespace Verif.Vm
open Op

theorem hasPred_mem (bc : List Nat) : ∀ fuel c, hasPred bc fuel c = some (some true) → ∃ p ∈ instrs bc fuel c, p.1 = PRED := by
  intro fuel
  induction fuel with
  | zero => intro c h; cases h
  | succ fuel ih =>
    intro c h
    rw [hasPred, Option.bind_eq_some_iff] at h
    obtain ⟨o, ho, h⟩ := h
    rw [instrs, ho]
    split at h
    · cases h
    · rename_i h1
      split at h
      · rename_i h2
        exact ⟨(o, bc.getD (c + 1) 0), by simp, h2⟩
      · split at h
        · cases h
        · split at h
          · cases h
          · obtain ⟨p, hp, hp'⟩ := ih _ h
            exact ⟨p, by simp [if_neg h1, hp], hp'⟩

/-- Let the compiler accept a body made of the instructions that BQN compilers use, with list lengths below 2⋆31, and with each check for Nothing right after an instruction
that leaves a value. Run it with as many values reserved as the compiler says, but at least one, and at least two if the body has a predicate. Then, whatever headers and
predicates fail and wherever errors occur, every value is taken from the body's own part of the stack, every value is put in the reserved part, every instruction
is one the interpreter has, and if the body returns then exactly its result was left on the stack.
What is missing from C34: bodies that need more than the compiler says (the examples below), and the other instructions. -/
theorem stack_discipline_partial (E : Ctx) (bc : List Nat) (idx vam : Nat) (prog : List Nat) (m : Int) (cap : Nat)
    (hc : compileBody E bc idx vam = some (.ok prog m))
    (hs : ∀ p ∈ instrs bc (bc.length + 1) idx, p.1 ∈ source)
    (hl : ∀ p ∈ instrs bc (bc.length + 1) idx, p.1 ∈ [LSTO, LSTM, ARMO, ARMM] → p.2 < 2 ^ 31)
    (ha : ∀ p ∈ instrs bc (bc.length + 1) idx, p.1 = ARMO → p.2 ≠ 0)
    (hv : CheckedValues false (instrs bc (bc.length + 1) idx))
    (hm : m ≤ cap) (h1 : 1 ≤ cap) (h2 : (∃ p ∈ instrs bc (bc.length + 1) idx, p.1 = PRED) → 2 ≤ cap)
    (throws fails : Nat → Bool) :
    exec prog cap throws fails prog.length 0 0 = some .left ∨ exec prog cap throws fails prog.length 0 0 = some (.returned 0) := by
  have hfine : Fine (instrs bc (bc.length + 1) idx) := fun p hp =>
    ⟨hs p hp, fun hco => hl p hp (by have := hco; simp [counted] at this; simpa using this), ha p hp⟩
  rw [compileBody] at hc
  split at hc
  · cases hc
  · rw [Option.bind_eq_some_iff] at hc
    obtain ⟨q, hq, hc⟩ := hc
    split at hc
    · cases hc
    · obtain ⟨tail, ht, hr⟩ := loop_runs E bc cap throws fails h1 _ _ _ _ _ _ _ false hc (by omega) (by simp) hm hfine hv
      have := hr prog.length (by rw [ht]; simp)
      simpa using this
    · split at hc
      · cases hc
      · rw [Option.bind_eq_some_iff] at hc
        obtain ⟨u, hu, hc⟩ := hc
        split at hc
        · cases hc
        · rename_i used
          have hcap := h2 (hasPred_mem bc _ _ hq)
          obtain ⟨tail, ht, hr⟩ := loop_runs E bc cap throws fails h1 _ _ _ _ _ _ _ false hc (by omega) (by simp) hm hfine hv
          obtain ⟨k', hk, hp⟩ := prelude_runs cap throws fails hcap vam tail used 0 [] prog.length (by rw [ht]; simp)
          simp only [List.nil_append, List.length_nil, Nat.zero_add] at hp
          rw [← ht] at hp
          rcases hp with hp | hp
          · exact .inl hp
          · rw [hp]
            have hlen : prog.length = (prelude vam used 0).length + tail.length := by rw [ht, List.length_append]
            exact hr k' (by omega)

/-- A context for examples: all constants are numbers, no variables are extended. -/
def ctx (imm : Bool) : Ctx := ⟨fun _ => some (false, 0, 0), fun _ => some (0, 0, 0), fun _ p => some (false, p), id, (0, 0), (0, 0), imm, 0, 3, false⟩

/-- `{𝕨+𝕩}`. -/
def plus : List Nat := [code VARO, 0, 1, code PUSH, 0, code VARO, 0, 2, code FN2O, code RETN]

example : compileBody (ctx false) plus 0 3 = some (.ok [code VARO, 0, 1, code ADDU, 0, 0, code VARO, 0, 2, code FN2O, code RETN] 3) ∧
    (∀ p ∈ instrs plus (plus.length + 1) 0, p.1 ∈ source) ∧ CheckedValues false (instrs plus (plus.length + 1) 0) ∧
    (∀ p ∈ instrs plus (plus.length + 1) 0, p.1 ∉ [LSTO, LSTM, ARMO, ARMM, PRED]) := by
  refine ⟨by decide +kernel, by decide +kernel, ?_, by decide +kernel⟩
  simp [instrs, plus, CheckedValues, ofCode, code, codes, bL]

/-- Two values would not be enough for it. -/
example : exec [code VARO, 0, 1, code ADDU, 0, 0, code VARO, 0, 2, code FN2O, code RETN] 3 (fun _ => false) (fun _ => false) 11 0 0 = some (.returned 0) ∧
    exec [code VARO, 0, 1, code ADDU, 0, 0, code VARO, 0, 2, code FN2O, code RETN] 2 (fun _ => false) (fun _ => false) 11 0 0 = none := by decide +kernel

/-- The first body of `{𝕩 ? 1 ; 2}`. -/
def choice : List Nat := [code VARO, 0, 1, code PRED, code PUSH, 0, code RETN]

/-- **The compiler reserves too little for predicates.** The argument is copied to another variable first, with two values on the stack, but one is reserved. -/
theorem predicate_exceeds_reserved :
    ∃ prog, compileBody (ctx false) choice 0 3 = some (.ok prog 1) ∧
      exec prog 1 (fun _ => false) (fun _ => false) prog.length 0 0 = none ∧ exec prog 2 (fun _ => false) (fun _ => false) prog.length 0 0 = some (.returned 0) :=
  ⟨[code VARO, 0, 1, code VARM, 0, 4, code SETN, code POPS, code VARO, 0, 1, code PRED2, 0, 0, 0, 0, code ADDU, 0, 0, code RETN],
    by decide +kernel, by decide +kernel, by decide +kernel⟩

/-- **An empty namespace block** puts its namespace on the stack with nothing reserved. -/
theorem namespace_exceeds_reserved :
    compileBody (ctx true) [code RETD] 0 0 = some (.ok [code RETD] 0) ∧ exec [code RETD] 0 (fun _ => false) (fun _ => false) 1 0 0 = none := by decide +kernel

/-- **A check for Nothing on an empty stack is accepted**, and looks at the value below the body's part of the stack. -/
theorem check_below_base :
    ∃ prog, compileBody (ctx true) [code CHKV, code PUSH, 0, code RETN] 0 0 = some (.ok prog 1) ∧
      exec prog 1 (fun _ => false) (fun _ => false) prog.length 0 0 = none :=
  ⟨[code CHKV, code ADDU, 0, 0, code RETN], by decide +kernel, by decide +kernel⟩

/-- **A list of 2⋆32-1 values is accepted** on an empty stack, as a list of ¯1 values. -/
theorem list_count_negative :
    ∃ prog, compileBody (ctx true) [code LSTO, 2 ^ 32 - 1, code POPS, code RETN] 0 0 = some (.ok prog 2) ∧
      exec prog 2 (fun _ => false) (fun _ => false) prog.length 0 0 = none :=
  ⟨[code LSTO, 2 ^ 32 - 1, code POPS, code RETN], by decide +kernel, by decide +kernel⟩

/-- **Instructions that the interpreter does not have are accepted.** -/
theorem unknown_instruction_accepted :
    ∃ prog, compileBody (ctx true) [code SYSV, 0, code RETN] 0 0 = some (.ok prog 1) ∧ exec prog 1 (fun _ => false) (fun _ => false) prog.length 0 0 = none :=
  ⟨[code SYSV, 0, code RETN], by decide +kernel, by decide +kernel⟩

/-- **Bytecode without a return** is read one word past its end rather than refused. -/
theorem compile_reads_past_end : compileBody (ctx true) [code PUSH, 0] 0 0 = none := by decide +kernel

end Verif.Vm
