import Verif.Lemmas.CallMem
import Verif.Props.VariantMem
/-
C81: the temporaries of a call.
-/
set_option autoImplicit false
namespace Rtti.Props
open VMem CallMem

/-- How a call ends, for all parameters that can be passed at all: there is never undefined behaviour; in particular the function finds every temporary
    alive and with the value that was copied or converted (`throws` is any function of these). Allocations may fail. -/
theorem C81_outcome (P : Prog) (throws : List Nat → Bool) (ps : List Param) (hf : ∀ p ∈ ps, p.Fine P) (x : Nat)
    (s : State) (hs : ∀ k, x ≤ k → k < x + ps.length → s.env (some k) = none) (hn : s.env none = none) :
    (call P throws x ps s).1 = (callS P throws s.mem.nextBlock [] ps).1 ∧ (call P throws x ps s).1 ≠ .ub := by
  have h := (call_spec throws ps hf x s hs hn).1
  exact ⟨h, by rw [h]; exact callS_defined throws ps _ []⟩

/-- What remains of a call unless it terminates the program, whether it returns or throws: the variants and the objects and blocks there were are as
    before, and exactly the objects and blocks listed by `callS` have been made and not destroyed. -/
theorem C81_exact (P : Prog) (throws : List Nat → Bool) (ps : List Param) (hf : ∀ p ∈ ps, p.Fine P) (x : Nat)
    (s : State) (hs : ∀ k, x ≤ k → k < x + ps.length → s.env (some k) = none) (hn : s.env none = none)
    (ht : (callS P throws s.mem.nextBlock [] ps).1 ≠ .terminated) :
    let s' := (call P throws x ps s).2
    s'.env = s.env ∧
    (∀ id, id < s.mem.nextObj → s'.mem.objs id = s.mem.objs id) ∧
    (∀ b, b < s.mem.nextBlock → s'.mem.blocks b = s.mem.blocks b) ∧
    (∀ q, ctors q s'.mem.log + dtors q s.mem.log = ctors q s.mem.log + dtors q s'.mem.log + (callS P throws s.mem.nextBlock [] ps).2.1.countP q) ∧
    allocs s'.mem.log + frees s.mem.log = allocs s.mem.log + frees s'.mem.log + (callS P throws s.mem.nextBlock [] ps).2.2 := by
  obtain ⟨he, hE⟩ := (call_spec throws ps hf x s hs hn).2 ht
  refine ⟨he, hE.objs, hE.blocks, fun q => by simpa using hE.bal q, by simpa using hE.balB⟩

/-- a parameter that leaves nothing behind: no converter constructs an object and declines; what is kept in `m_dummy` is trivial, or too big for the buffer
    and moved without an exception -/
def CleanParam (P : Prog) : Param → Prop
  | .direct => True
  | .value t src => (P.ty t).trivial = true ∨ ∀ v, src ≠ .made v false
  | .dummy t src => ((P.ty t).trivial = true ∨ (P.ty t).place ≠ .small ∧ ∀ v, src ≠ .made v false) ∧
      ((P.ty t).place ≠ .small → ∀ v, moveS P t v ≠ .threw)

theorem toS_lost {P : Prog} {t : Nat} {src : Src} (h : (P.ty t).trivial = true ∨ ∀ v, src ≠ .made v false) :
    ∀ u ∈ (toS P t src).2, (P.ty u).trivial = true := by
  rcases h with h | h
  · intro u hu
    have : u = t := by
      cases src with
      | copy v =>
        have e : (toS P t (.copy v)).2 = [] := by
          unfold toS
          rcases hq : fillS P t (.copy v) with ⟨o, l⟩
          have : l = [] := by simpa [fillS] using (congrArg Prod.snd hq).symm
          subst this
          cases o <;> rfl
        simp [e] at hu
      | made v b => cases b <;> simpa [toS, fillS] using hu
      | fails => simp [toS, fillS] at hu
    rw [this]; exact h
  · intro u hu
    cases src with
    | copy v =>
      have e : (toS P t (.copy v)).2 = [] := by
        unfold toS
        rcases hq : fillS P t (.copy v) with ⟨o, l⟩
        have : l = [] := by simpa [fillS] using (congrArg Prod.snd hq).symm
        subst this
        cases o <;> rfl
      simp [e] at hu
    | made v b => cases b with
      | true => simp [toS, fillS] at hu
      | false => exact absurd rfl (h v)
    | fails => simp [toS, fillS] at hu

theorem callS_clean {P : Prog} {throws : List Nat → Bool} {ps : List Param} (h : ∀ p ∈ ps, CleanParam P p) (n : Nat) (vs : List Nat)
    (ht : (callS P throws n vs ps).1 ≠ .terminated) :
    (∀ u ∈ (callS P throws n vs ps).2.1, (P.ty u).trivial = true) ∧ (callS P throws n vs ps).2.2 = 0 := by
  induction ps generalizing n vs with
  | nil => simp [callS]
  | cons p ps ih =>
    have ih := fun n vs ht => ih (fun p hp => h p (.tail _ hp)) n vs ht
    have hp := h p (.head _)
    cases p with
    | direct => exact ih n vs ht
    | value t src =>
      have hl := toS_lost hp
      revert hl ht
      unfold callS
      rcases toS P t src with ⟨o, l⟩
      intro ht hl
      cases o with
      | ok v =>
        obtain ⟨a, b⟩ := ih _ _ ht
        refine ⟨fun u hu => ?_, b⟩
        rcases List.mem_append.mp hu with hu | hu
        · exact hl u hu
        · exact a u hu
      | threw | terminated | ub => exact ⟨hl, rfl⟩
    | dummy t src =>
      obtain ⟨h1, h2⟩ := hp
      have hl := toS_lost (h1.imp_right (·.2))
      revert hl ht
      unfold callS
      rcases toS P t src with ⟨o, l⟩
      intro ht hl
      cases o with
      | threw | terminated | ub => exact ⟨hl, rfl⟩
      | ok v =>
        dsimp only at ht ⊢
        by_cases hoom : (P.ty t).place ≠ .small ∧ P.oom n = true
        · rw [if_pos hoom]
          exact ⟨hl, rfl⟩
        rw [if_neg hoom] at ht ⊢
        cases hm : moveS P t v with
        | ok v' =>
          rw [hm] at ht
          dsimp only at ht ⊢
          by_cases hsm : (P.ty t).place = .small
          · rw [if_pos hsm] at ht ⊢
            cases hm2 : moveS P t v' with
            | ok v2 =>
              rw [hm2] at ht
              obtain ⟨a, b⟩ := ih _ _ ht
              refine ⟨fun u hu => ?_, b⟩
              rcases List.mem_append.mp hu with hu | hu
              · exact hl u hu
              · rcases List.mem_cons.mp hu with rfl | hu
                · exact h1.resolve_right fun h => h.1 hsm
                · exact a u hu
            | threw | terminated | ub => exact ⟨hl, rfl⟩
          · rw [if_neg hsm] at ht ⊢
            obtain ⟨a, b⟩ := ih _ _ ht
            refine ⟨fun u hu => ?_, b⟩
            rcases List.mem_append.mp hu with hu | hu
            · exact hl u hu
            · exact a u hu
        | threw =>
          by_cases hsm : (P.ty t).place = .small
          · exact ⟨hl, by simp [hsm]⟩
          · exact absurd hm (h2 hsm v)
        | terminated => rw [hm] at ht; exact absurd rfl ht
        | ub =>
          by_cases hsm : (P.ty t).place = .small
          · exact ⟨hl, by simp [hsm]⟩
          · exfalso
            revert hm
            simp only [moveS, promised]
            split
            · nofun
            · split <;> nofun

/-- No temporary survives its call, whatever throws: every non-trivial object made during the call is destroyed during it, and every block is freed — if no
    converter constructs an object and declines, and what is kept in `m_dummy` is trivial or on the heap and moved without an exception.
    Without these conditions it is false. -/
theorem C81_no_leak_partial (P : Prog) (throws : List Nat → Bool) (ps : List Param) (hf : ∀ p ∈ ps, p.Fine P)
    (hc : ∀ p ∈ ps, CleanParam P p) (x : Nat) (s : State) (hs : ∀ k, x ≤ k → k < x + ps.length → s.env (some k) = none) (hn : s.env none = none)
    (ht : (call P throws x ps s).1 ≠ .terminated) :
    let s' := (call P throws x ps s).2
    (∀ t, (P.ty t).trivial = false → ctors (· == t) s'.mem.log + dtors (· == t) s.mem.log = ctors (· == t) s.mem.log + dtors (· == t) s'.mem.log) ∧
    allocs s'.mem.log + frees s.mem.log = allocs s.mem.log + frees s'.mem.log := by
  rw [(C81_outcome P throws ps hf x s hs hn).1] at ht
  obtain ⟨-, -, -, hb, hB⟩ := C81_exact P throws ps hf x s hs hn ht
  obtain ⟨h1, h2⟩ := callS_clean hc _ [] ht
  refine ⟨fun t htr => ?_, by rw [h2] at hB; exact hB⟩
  have := hb (· == t)
  rwa [List.countP_eq_zero.mpr, Nat.add_zero] at this
  intro u hu he
  have : u = t := by simpa using he
  rw [this] at hu
  rw [h1 t hu] at htr
  cases htr

/-- a call with one parameter of type `t`; constructed and destroyed objects of type `t`, allocated and freed blocks -/
private def one (P : Prog) (p : Param) (t : Nat) : Out Unit × Nat × Nat × Nat × Nat :=
  let r := call P (fun _ => false) 0 [p] VMem.init
  (r.1, ctors (· == t) r.2.mem.log, dtors (· == t) r.2.mem.log, allocs r.2.mem.log, frees r.2.mem.log)

/-- a small and a big type that are not trivial, and two whose moves throw for 9 -/
def callTys : Prog where
  ty
    | 0 => ⟨.small, true, true, true, true, false, some, fun v => some (v, 0)⟩
    | 1 => ⟨.big, true, true, true, true, false, some, fun v => some (v, 0)⟩
    | 2 => ⟨.big, true, true, true, false, false, some, fun v => if v = 9 then none else some (9, 0)⟩
    | _ => ⟨.small, true, true, true, true, true, some, fun v => some (v, v)⟩
  oom _ := false

/-- A converter that constructs its result and returns false: the object is never destroyed. -/
theorem C81_declined_false : one callTys (.value 0 (.made 7 false)) 0 = (.threw, 1, 0, 0, 0) := by decide +kernel

/-- Every call with a converted argument of a small non-trivial type (by const reference) loses one object. -/
theorem C81_dummy_false : one callTys (.dummy 0 (.copy 7)) 0 = (.ok (), 4, 3, 0, 0) := by decide +kernel

/-- A move that throws on the way into `m_dummy` loses the block. -/
theorem C81_block_false : one callTys (.dummy 2 (.copy 7)) 2 = (.threw, 2, 2, 1, 0) := by decide +kernel

/-- the same types, without memory for the second block -/
def callTysOom : Prog := { callTys with oom := (· == 1) }

-- No memory for the second converted argument: nothing of the call remains, if the move constructor may throw; the program is terminated if
-- it may not (the allocation is behind its `noexcept`).
example : one callTysOom (.dummy 2 (.copy 9)) 2 = (.threw, 1, 1, 0, 0) := by decide +kernel
example : (call callTysOom (fun _ => false) 0 [.dummy 1 (.copy 7), .value 0 (.copy 5), .dummy 2 (.made 9 true)] VMem.init).1 = .threw := by decide +kernel
example : (call callTysOom (fun _ => false) 0 [.dummy 1 (.copy 7), .dummy 1 (.copy 7)] VMem.init).1 = .terminated := by decide +kernel
example : (call callTysOom (fun _ => false) 0 [.dummy 1 (.copy 7), .value 1 (.copy 7), .dummy 0 (.copy 7)] VMem.init).1 = .ok () := by decide +kernel

-- clean: by value, and through `m_dummy` on the heap; the function sees 7
example : one callTys (.value 0 (.copy 7)) 0 = (.ok (), 2, 2, 0, 0) := by decide +kernel
example : one callTys (.dummy 1 (.made 7 true)) 1 = (.ok (), 3, 3, 1, 1) := by decide +kernel
example : (call callTys (fun vs => vs == [7, 8]) 0 [.value 0 (.copy 7), .direct, .dummy 1 (.copy 8)] VMem.init).1 = .threw := by decide +kernel
example : (call callTys (fun vs => vs == [8, 7]) 0 [.value 0 (.copy 7), .direct, .dummy 1 (.copy 8)] VMem.init).1 = .ok () := by decide +kernel

example (throws : List Nat → Bool) (v w : Nat) :
    let r := (call callTys throws 0 [.value 0 (.copy v), .dummy 1 (.made w true), .direct, .dummy 3 (.copy v), .value 1 .fails] VMem.init)
    r.1 ≠ .ub ∧ (r.1 ≠ .terminated → ctors (· == 1) r.2.mem.log + 0 = 0 + dtors (· == 1) r.2.mem.log) := by
  have hf : ∀ p ∈ [Param.value 0 (.copy v), .dummy 1 (.made w true), .direct, .dummy 3 (.copy v), .value 1 .fails], p.Fine callTys := by
    simp [Param.Fine, callTys]
  exact ⟨(C81_outcome callTys throws _ hf 0 VMem.init (fun _ _ _ => rfl) rfl).2, fun ht =>
    (C81_no_leak_partial callTys throws _ hf (by simp [CleanParam, callTys, moveS, promised]) 0 VMem.init
      (fun _ _ _ => rfl) rfl ht).1 1 rfl⟩

end Rtti.Props
