import Verif.Lemmas.CallVal
import Verif.Props.CallMem
/-
C81: calls whose result is returned by value, and calls of constructors.
-/
set_option autoImplicit false
namespace Rtti.Props
open VMem CallMem

/-- How such a call ends, and what remains of it: never undefined behaviour; unless the program is terminated every other variant and everything there was is as before;
    when the call returns the result owns an object with the value returned, moved once, and nothing else is made and not destroyed but what `callValS`
    lists; when it throws there is no result. -/
theorem C81_result (P : Prog) (y t : Nat) (ha : (P.ty t).place ≠ .array) (hc : (P.ty t).copyable = true ∨ (P.ty t).movable = true)
    (f : List Nat → Option Nat) (ps : List Param) (hf : ∀ p ∈ ps, p.Fine P) (x : Nat) (s : State)
    (hs : ∀ k, x ≤ k → k < x + ps.length → s.env (some k) = none) (hn : s.env none = none) (hy : y < x ∨ x + ps.length ≤ y) (hy0 : s.env (some y) = none) :
    let r := callValS P t f s.mem.nextBlock [] ps
    let s' := (callVal P y t f x ps s).2
    (callVal P y t f x ps s).1 = toUnit r.1 ∧ r.1 ≠ .ub ∧
    (r.1 ≠ .terminated →
      (∀ k, k ≠ some y → s'.env k = s.env k) ∧
      (∀ v, r.1 = .ok v → Owns P s' y t v) ∧ (r.1 = .threw → s'.env (some y) = none) ∧
      (∀ id, id < s.mem.nextObj → s'.mem.objs id = s.mem.objs id) ∧
      (∀ b, b < s.mem.nextBlock → s'.mem.blocks b = s.mem.blocks b) ∧
      (∀ q, ctors q s'.mem.log + dtors q s.mem.log = ctors q s.mem.log + dtors q s'.mem.log + r.2.1.countP q + (inResult P t r.1).1.countP q) ∧
      allocs s'.mem.log + frees s.mem.log = allocs s.mem.log + frees s'.mem.log + r.2.2 + (inResult P t r.1).2) := by
  obtain ⟨s', e, h⟩ := callVal_spec ha hc f ps hf x s hs hn hy
  have hd := callValS_defined (P := P) (t := t) f ps s.mem.nextBlock []
  rw [e]
  refine ⟨rfl, hd, fun ht => ?_⟩
  obtain ⟨h1, h2, h3⟩ := h ht
  refine ⟨h1, fun v hv => ?_, fun hv => ?_, h3.objs, h3.blocks, fun q => ?_, ?_⟩
  · rw [hv] at h2
    have h2 : Has P s' s.mem.nextObj s'.mem.nextObj s.mem.nextBlock s'.mem.nextBlock y t v := h2
    unfold Has at h2
    unfold Owns
    split
    · rw [if_pos ‹_›] at h2
      obtain ⟨id, a, -, -, b⟩ := h2
      exact ⟨id, a, b⟩
    · rw [if_neg ‹_›] at h2
      obtain ⟨b, id, a, -, -, c, -, -, d⟩ := h2
      exact ⟨b, id, a, c, d⟩
  · rw [hv] at h2
    exact Eq.trans h2 hy0
  · have := h3.bal q
    simp only [List.countP_append, List.countP_nil] at this ⊢
    omega
  · have := h3.balB
    dsimp only
    omega

/-- The result of the call and its destruction: afterwards only what `callValS` lists remains. -/
theorem C81_result_end (P : Prog) (y t : Nat) (ha : (P.ty t).place ≠ .array) (hc : (P.ty t).copyable = true ∨ (P.ty t).movable = true)
    (f : List Nat → Option Nat) (ps : List Param) (hf : ∀ p ∈ ps, p.Fine P) (x : Nat) (s : State)
    (hs : ∀ k, x ≤ k → k < x + ps.length → s.env (some k) = none) (hn : s.env none = none) (hy : y < x ∨ x + ps.length ≤ y) (hy0 : s.env (some y) = none)
    (v : Nat) (hv : (callValS P t f s.mem.nextBlock [] ps).1 = .ok v) :
    let r := callValS P t f s.mem.nextBlock [] ps
    let s' := (seq (callVal P y t f x ps) (doDestroy P (some y)) s).2
    (seq (callVal P y t f x ps) (doDestroy P (some y)) s).1 = .ok () ∧ s'.env = s.env ∧
    (∀ id, id < s.mem.nextObj → s'.mem.objs id = s.mem.objs id) ∧
    (∀ b, b < s.mem.nextBlock → s'.mem.blocks b = s.mem.blocks b) ∧
    (∀ q, ctors q s'.mem.log + dtors q s.mem.log = ctors q s.mem.log + dtors q s'.mem.log + r.2.1.countP q) ∧
    allocs s'.mem.log + frees s.mem.log = allocs s.mem.log + frees s'.mem.log + r.2.2 := by
  obtain ⟨s', e, h⟩ := callVal_spec ha hc f ps hf x s hs hn hy
  obtain ⟨h1, h2, h3⟩ := h (by rw [hv]; nofun)
  rw [hv] at h2 h3 e
  have h2 : Has P s' s.mem.nextObj s'.mem.nextObj s.mem.nextBlock s'.mem.nextBlock y t v := h2
  obtain ⟨m, ed, -, -, hE⟩ := doDestroy_has h2
  have es : seq (callVal P y t f x ps) (doDestroy P (some y)) s = (.ok (), put (some y) none ⟨s'.env, m⟩) := by
    simp [seq, e, toUnit, ed]
  have h4 : Eff s.mem.nextObj s.mem.nextBlock s.mem m [] (callValS P t f s.mem.nextBlock [] ps).2.1 0 (callValS P t f s.mem.nextBlock [] ps).2.2 := by
    have := h3.trans (hE.frame (callValS P t f s.mem.nextBlock [] ps).2.1 (callValS P t f s.mem.nextBlock [] ps).2.2) (Nat.le_refl _) (Nat.le_refl _)
    simpa using this
  rw [es]
  refine ⟨rfl, funext fun k => ?_, h4.objs, h4.blocks, fun q => by simpa [put] using h4.bal q, by simpa [put] using h4.balB⟩
  by_cases hk : k = some y
  · subst hk
    simp [put, upd, hy0]
  · rw [show (put (some y) none ⟨s'.env, m⟩).env k = s'.env k by simp [put, upd, hk], h1 k hk]

/-- what calls with a result lose: as those without, and a block if the value returned cannot be moved -/
theorem callValS_lost {P : Prog} {t : Nat} {f : List Nat → Option Nat} (ps : List Param) (n : Nat) (vs : List Nat) :
    let r := callValS P t f n vs ps
    let c := callS P (fun vs => (f vs).isNone) n vs ps
    r.2.1 = c.2.1 ∧ c.2.2 ≤ r.2.2 ∧ ((∃ v, r.1 = .ok v) → c.1 = .ok ()) ∧
    (((∃ v, r.1 = .ok v) ∨ (P.ty t).place = .small ∨ ∀ v, moveS P t v ≠ .threw) → r.1 ≠ .terminated → r.2.2 = c.2.2) ∧
    (c.1 ≠ .ok () → toUnit r.1 = c.1 ∧ r.2.2 = c.2.2) := by
  induction ps generalizing n vs with
  | nil =>
    unfold callValS callS
    cases f vs with
    | none => simp [toUnit]
    | some v =>
      have hu : moveS P t v ≠ .ub := by
        simp only [moveS, promised]
        split
        · nofun
        · split <;> nofun
      simp only [resultS]
      split
      · split <;> simp
      · cases hm : moveS P t v with
        | ok v' => simp
        | threw =>
          refine ⟨by simp, Nat.zero_le _, by simp, fun h _ => ?_, by simp⟩
          rcases h with ⟨w, h⟩ | h | h
          · cases h
          · simp [h]
          · exact absurd hm (h v)
        | terminated => simp
        | ub => exact absurd hm hu
  | cons p ps ih =>
    cases p with
    | direct => exact ih n vs
    | value u src =>
      unfold callValS callS
      rcases toS P u src with ⟨o, l⟩
      cases o with
      | ok v =>
        obtain ⟨a, b⟩ := ih n (vs ++ [v])
        exact ⟨by dsimp only at a ⊢; rw [a], b⟩
      | threw | terminated | ub => simp [toUnit]
    | dummy u src =>
      unfold callValS callS
      rcases toS P u src with ⟨o, l⟩
      cases o with
      | threw | terminated | ub => simp [toUnit]
      | ok v =>
        dsimp only
        split
        · split <;> simp [toUnit]
        · cases moveS P u v with
          | threw | terminated | ub => simp [toUnit]
          | ok v' =>
            dsimp only
            split
            · cases moveS P u v' with
              | threw | terminated | ub => simp [toUnit]
              | ok v2 =>
                obtain ⟨a, b⟩ := ih n (vs ++ [v2])
                exact ⟨by dsimp only at a ⊢; rw [a], b⟩
            · obtain ⟨a, b⟩ := ih (n + 1) (vs ++ [v'])
              exact ⟨by dsimp only at a ⊢; rw [a], b⟩

/-- Nothing of a call remains but its result, if nothing remains of the parameters and the value returned is moved without an exception, or kept in the
    variant itself. Without these conditions it is false. -/
theorem C81_result_no_leak_partial (P : Prog) (y t : Nat) (ha : (P.ty t).place ≠ .array) (hc : (P.ty t).copyable = true ∨ (P.ty t).movable = true)
    (f : List Nat → Option Nat) (ps : List Param) (hf : ∀ p ∈ ps, p.Fine P) (hcl : ∀ p ∈ ps, CleanParam P p)
    (hm : (P.ty t).place = .small ∨ ∀ v, moveS P t v ≠ .threw) (x : Nat) (s : State)
    (hs : ∀ k, x ≤ k → k < x + ps.length → s.env (some k) = none) (hn : s.env none = none) (hy : y < x ∨ x + ps.length ≤ y) (hy0 : s.env (some y) = none)
    (ht : (callVal P y t f x ps s).1 ≠ .terminated) :
    let s' := (callVal P y t f x ps s).2
    let got := if (callVal P y t f x ps s).1 = .ok () then 1 else 0
    (∀ u, (P.ty u).trivial = false → ctors (· == u) s'.mem.log + dtors (· == u) s.mem.log =
      ctors (· == u) s.mem.log + dtors (· == u) s'.mem.log + if u = t then got else 0) ∧
    allocs s'.mem.log + frees s.mem.log = allocs s.mem.log + frees s'.mem.log + if (P.ty t).place = .small then 0 else got := by
  obtain ⟨h1, h2, h3⟩ := C81_result P y t ha hc f ps hf x s hs hn hy hy0
  have hl := callValS_lost (P := P) (t := t) (f := f) ps s.mem.nextBlock []
  dsimp only at h1 h2 h3 hl ⊢
  rw [h1] at ht ⊢
  generalize callValS P t f s.mem.nextBlock [] ps = R at *
  obtain ⟨ro, rl, rb⟩ := R
  dsimp only at *
  have hne : ro ≠ .terminated := fun e => ht (by rw [e]; rfl)
  obtain ⟨-, -, -, -, -, hb, hB⟩ := h3 hne
  obtain ⟨l1, l2, l3, l4, l5⟩ := hl
  have hcs : (callS P (fun vs => (f vs).isNone) s.mem.nextBlock [] ps).1 ≠ .terminated := by
    intro e
    have := (l5 (by rw [e]; nofun)).1
    rw [e] at this
    cases ro <;> simp [toUnit] at this hne
  obtain ⟨k1, k2⟩ := callS_clean hcl _ [] hcs
  have hrb : rb = 0 := by rw [l4 (.inr hm) hne, k2]
  have hrl : ∀ u, (P.ty u).trivial = false → rl.countP (· == u) = 0 := by
    intro u hu
    rw [List.countP_eq_zero]
    intro w hw he
    have : w = u := by simpa using he
    rw [this, l1] at hw
    rw [k1 u hw] at hu
    cases hu
  have hto : (toUnit ro = .ok ()) ↔ ∃ v, ro = .ok v := by cases ro <;> simp [toUnit]
  refine ⟨fun u hu => ?_, ?_⟩
  · have := hb (· == u)
    rw [hrl u hu] at this
    rw [this]
    cases ro with
    | ok v =>
      by_cases hut : u = t
      · simp [inResult, toUnit, hut]
      · have : (t == u) = false := by simpa using fun e => hut e.symm
        simp [inResult, hut, this]
    | threw | terminated | ub => simp [inResult, toUnit]
  · rw [hB, hrb]
    cases ro with
    | ok v => simp [inResult, toUnit]
    | threw | terminated | ub => simp [inResult, toUnit]

/-- constructed and destroyed objects of the type returned, allocated and freed blocks -/
private def give (P : Prog) (t : Nat) (f : List Nat → Option Nat) (ps : List Param) : Out Unit × Option Var × Nat × Nat × Nat × Nat :=
  let r := callVal P 9 t f 0 ps VMem.init
  (r.1, r.2.env (some 9), ctors (· == t) r.2.mem.log, dtors (· == t) r.2.mem.log, allocs r.2.mem.log, frees r.2.mem.log)

/-- A value returned whose move throws: the block that was to hold it is never freed. -/
theorem C81_result_block_false : give callTys 2 (fun _ => some 9) [] = (.threw, none, 1, 1, 1, 0) := by decide +kernel

example : give callTys 2 (fun _ => some 7) [] = (.ok (), some ⟨.own 2, .block 0⟩, 2, 1, 1, 0) := by decide +kernel
example : give callTys 0 (fun vs => vs.head?) [.value 1 (.copy 7), .dummy 1 (.copy 8)] = (.ok (), some ⟨.own 0, .obj 6⟩, 2, 1, 1, 1) := by decide +kernel
example : (callVal callTys 9 0 (fun vs => vs.head?) 0 [.value 1 (.copy 7), .dummy 1 (.copy 8)] VMem.init).2.mem.objs 6 = some ⟨0, 7⟩ := by decide +kernel
-- no memory for the result: terminated if the move constructor is noexcept
example : give callTysOom 2 (fun _ => some 7) [.dummy 1 (.copy 8)] = (.threw, none, 1, 1, 1, 1) := by decide +kernel
example : (give callTysOom 1 (fun _ => some 7) [.dummy 1 (.copy 8)]).1 = .terminated := by decide +kernel

example (f : List Nat → Option Nat) (v w : Nat) :
    let r := (callVal callTys 9 1 f 0 [.value 0 (.copy v), .dummy 1 (.made w true), .direct, .dummy 3 (.copy v)] VMem.init)
    r.1 ≠ .terminated → ctors (· == 0) r.2.mem.log + 0 = 0 + dtors (· == 0) r.2.mem.log + 0 := by
  have hf : ∀ p ∈ [Param.value 0 (.copy v), .dummy 1 (.made w true), .direct, .dummy 3 (.copy v)], p.Fine callTys := by
    simp [Param.Fine, callTys]
  exact fun ht => (C81_result_no_leak_partial callTys 9 1 nofun (.inl rfl) f _ hf (by simp [CleanParam, callTys, moveS, promised])
    (.inr (by simp [callTys, moveS, promised])) 0 VMem.init (fun _ _ _ => rfl) rfl (.inr (by simp)) rfl ht).1 0 rfl

example (f : List Nat → Option Nat) (w : Nat) (h : f [w] = some 5) :
    (seq (callVal callTys 9 0 f 0 [.dummy 1 (.made w true)]) (doDestroy callTys (some 9)) VMem.init).1 = .ok () :=
  (C81_result_end callTys 9 0 nofun (.inl rfl) f [.dummy 1 (.made w true)] (by simp [Param.Fine, callTys]) 0 VMem.init (fun _ _ _ => rfl) rfl
    (.inr (by simp)) rfl 5 (by simp [callValS, toS, fillS, moveS, promised, callTys, h, resultS])).1

end Rtti.Props
