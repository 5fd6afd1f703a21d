import Verif.Props.Equal
import Verif.Props.CompatDeep
/-
C40: comparing variants of types with 16 pointers or more.
-/
set_option autoImplicit false
namespace Rtti.Props
open Rtti Spec Val

theorem constAt_addConst {u : CType} {m k : Nat} (h : u.pointerArity = m) (hk : k < m) :
    ConstAt (addConst u) k ↔ ConstAt u k := by
  cases u with
  | base b q => simp only [CType.pointerArity] at h; omega
  | arr n t => simp only [CType.pointerArity] at h; omega
  | ptr q t =>
    have out : ∀ (q : CV) {s : CType}, AtLevel (.ptr q t) k s → AtLevel t k s := by
      intro q s hs
      cases hs with
      | here hd =>
        have := (depth_iff _ _).1 hd
        simp only [CType.pointerArity] at this h
        omega
      | under _ hs => exact hs
    exact ⟨fun ⟨s, hs, hc⟩ => ⟨s, .under _ (out _ hs), hc⟩, fun ⟨s, hs, hc⟩ => ⟨s, .under _ (out _ hs), hc⟩⟩

/-- the innermost 16 levels: the first that differs is const in `u` only, and `u` is const from there on -/
def DiesOn (u u' : CType) : Prop :=
  ∃ p, p < 16 ∧ (∀ k, k < p → (ConstAt u' k ↔ ConstAt u k)) ∧ ¬ConstAt u' p ∧ ∀ k, p ≤ k → k < 16 → ConstAt u k

/-- C40, every outcome of `==` when one of the types has 16 pointers or more: if the numbers of pointers differ the variants are
    unequal; otherwise the process is terminated if `DiesOn`; else they are equal exactly if the types are the same but for const and
    volatile, const is in the same places in the innermost 16 levels, and the pointers are equal. -/
theorem C40_deep (E : Env) (C : Cmp) {v w : Vnt} {u u' : CType} {a a' : Addr} (st : Stands v u a) (st' : Stands w u' a')
    (na : a ≠ 0) (na' : a' ≠ 0) {m m' : Nat} (hu : Depth u m) (hu' : Depth u' m') (h16 : 16 ≤ m ∨ 16 ≤ m') (hm : m < 65536) (hm' : m' < 65536) :
    (equal E C v w = .terminate ↔ m = m' ∧ DiesOn u u') ∧
    (equal E C v w = .ok true ↔ m = m' ∧ SameDecay u u' ∧ (∀ k, k < 16 → (ConstAt u' k ↔ ConstAt u k)) ∧ (a = a' ∨ E.load a = E.load a')) ∧
    (equal E C v w = .terminate ∨ ∃ b, equal E C v w = .ok b) := by
  obtain ⟨h, e, rfl⟩ := st.held
  obtain ⟨g, e', rfl⟩ := st'.held
  have ar := (depth_iff _ _).1 hu
  have ar' := (depth_iff _ _).1 hu'
  have arS : (⟨.lref, addConst g.u⟩ : RType).t.pointerArity = g.u.pointerArity := addConst_arity _
  have arT : (⟨.lref, addConst h.u⟩ : RType).t.pointerArity = h.u.pointerArity := addConst_arity _
  have key : equal E C v w = (compat ⟨.lref, addConst g.u⟩ ⟨.lref, addConst h.u⟩).bind fun c =>
      if c && decide (g.u.fullDecay = h.u.fullDecay) then noThrow h.t (Val.compareEq E C h.t g.t a a') else .ok false := by
    unfold equal
    rw [e, e']
    simp only
    rw [object_left e st, object_right e' st', type_fullDecay, type_fullDecay]
    rfl
  by_cases hmm : m = m'
  · subst hmm
    have h16' : 16 ≤ m := by omega
    have hS : Depth (addConst g.u) m := (depth_iff _ _).2 (by rw [addConst_arity]; exact ar')
    have hT : Depth (addConst h.u) m := (depth_iff _ _).2 (by rw [addConst_arity]; exact ar)
    have nb : ¬NeverBinds ⟨.lref, addConst g.u⟩ ⟨.lref, addConst h.u⟩ := by
      rintro (⟨k, _⟩ | ⟨_, k⟩)
      · exact k rfl
      · cases k
    have d := C10_terminates_iff ⟨.lref, addConst g.u⟩ ⟨.lref, addConst h.u⟩ m m hS hT hm hm
    have y := C10_deep_answer ⟨.lref, addConst g.u⟩ ⟨.lref, addConst h.u⟩ m hS hT hm (by simpa using h16') nb
    have cg : ∀ k, k < 16 → (ConstAt (addConst g.u) k ↔ ConstAt g.u k) := fun k hk => constAt_addConst ar'.symm (by omega)
    have ch : ∀ k, k < 16 → (ConstAt (addConst h.u) k ↔ ConstAt h.u k) := fun k hk => constAt_addConst ar.symm (by omega)
    have d' : compatible (describe ⟨.lref, addConst g.u⟩) (describe ⟨.lref, addConst h.u⟩) = none ↔ DiesOn h.u g.u := by
      rw [d]
      constructor
      · rintro ⟨_, _, _, p, a, b, c, d⟩
        exact ⟨p, a, fun k hk => by rw [← cg k (by omega), ← ch k (by omega)]; exact b k hk, fun x => c ((cg p a).2 x),
          fun k k1 k2 => (ch k k2).1 (d k k1 k2)⟩
      · rintro ⟨p, a, b, c, d⟩
        exact ⟨nb, rfl, by simpa using h16', p, a, fun k hk => by rw [cg k (by omega), ch k (by omega)]; exact b k hk,
          fun x => c ((cg p a).1 x), fun k k1 k2 => (ch k k2).2 (d k k1 k2)⟩
    have y' : compatible (describe ⟨.lref, addConst g.u⟩) (describe ⟨.lref, addConst h.u⟩) = some true ↔
        ∀ k, k < 16 → (ConstAt g.u k ↔ ConstAt h.u k) := by
      rw [y]
      exact ⟨fun z k hk => by rw [← cg k hk, ← ch k hk]; exact z k hk, fun z k hk => by rw [cg k hk, ch k hk]; exact z k hk⟩
    rw [key]
    unfold compat
    rcases hc : compatible (describe ⟨.lref, addConst g.u⟩) (describe ⟨.lref, addConst h.u⟩) with _ | _ | _
    · have hd := d'.1 hc
      rw [hc] at y'
      refine ⟨⟨fun _ => ⟨rfl, hd⟩, fun _ => rfl⟩, ⟨nofun, fun k => ?_⟩, .inl rfl⟩
      exact nomatch y'.2 k.2.2.1
    · have nd : ¬DiesOn h.u g.u := fun k => by rw [d'.2 k] at hc; cases hc
      rw [hc] at y'
      refine ⟨⟨nofun, fun k => absurd k.2 nd⟩, ⟨fun k => by simp [Ret.bind] at k, fun k => ?_⟩, .inr ⟨false, rfl⟩⟩
      exact nomatch y'.2 k.2.2.1
    · have nd : ¬DiesOn h.u g.u := fun k => by rw [d'.2 k] at hc; cases hc
      have ag := y'.1 hc
      simp only [Ret.bind, Bool.true_and, decide_eq_true_eq]
      by_cases hd : g.u.fullDecay = h.u.fullDecay
      · rw [if_pos hd]
        have hsd : SameDecay h.u g.u := (fullDecay_iff _ _).1 hd.symm
        -- both are pointers
        have pt : ∀ {x : Held}, x.u.pointerArity = m → ∃ q p, (elem x.t).removeAllCv = .ptr q p ∧ x.u.fullDecay = .ptr q p ∧
            len x.t = 1 ∧ x.t.sizeOf = 8 := by
          intro x hx
          cases hxu : x.u with
          | base b q => rw [hxu] at hx; simp only [CType.pointerArity] at hx; omega
          | arr n t => rw [hxu] at hx; simp only [CType.pointerArity] at hx; omega
          | ptr q p =>
            refine ⟨_, _, by rw [← u_elem, hxu]; rfl, rfl, by rw [← u_len, hxu]; rfl, by rw [← u_sizeOf, hxu]; rfl⟩
        obtain ⟨q, p, h1, h2, h3, h4⟩ := pt ar.symm
        obtain ⟨q', p', g1, g2, g3, g4⟩ := pt ar'.symm
        have he : (elem h.t).removeAllCv = (elem g.t).removeAllCv := by rw [h1, g1, ← h2, ← g2, hd]
        have hq : hasEq h.t = true := (hasEq_iff _).2 fun b q hb => by rw [hb] at h1; cases h1
        have hz : (elem h.t).sizeOf = 8 := by rw [← removeAllCv_sizeOf, h1]; rfl
        have ev : Val.compareEq E C h.t g.t a a' = .ok (decide (a = a' ∨ E.load a = E.load a')) := by
          unfold Val.compareEq
          rw [hq, hz, g4, h3]
          simp only [Bool.not_true, Bool.false_eq_true, if_false]
          by_cases haa : a = a'
          · simp [haa]
          · rw [if_neg haa, if_neg (by simp [na, na']), if_neg (by simp [he]), h1]
            by_cases hl : E.load a = E.load a' <;> simp [rangeEq, elemEq, Val.lift, Ret.bind, hl, haa]
        rw [ev]
        simp only [noThrow, Ret.ok.injEq, decide_eq_true_eq]
        exact ⟨⟨nofun, fun k => absurd k.2 nd⟩, ⟨fun k => ⟨trivial, hsd, ag, k⟩, fun k => k.2.2.2⟩, .inr ⟨_, rfl⟩⟩
      · rw [if_neg hd]
        refine ⟨⟨nofun, fun k => absurd k.2 nd⟩, ⟨nofun, fun k => absurd ((fullDecay_iff _ _).2 k.2.1).symm hd⟩, .inr ⟨_, rfl⟩⟩
  · have hl : effArity ⟨.lref, addConst g.u⟩ ⟨.lref, addConst h.u⟩ ≠ (⟨.lref, addConst h.u⟩ : RType).t.pointerArity := by
      unfold effArity
      rw [arS, arT]
      split
      · rename_i hx
        simp only [Bool.and_eq_true, addConst_isArray] at hx
        have := arity_arr hx.1
        omega
      · omega
    have hc := compatible_levels _ _ (by omega) (by omega) hl
    rw [key]
    unfold compat
    rw [hc]
    exact ⟨⟨nofun, fun k => absurd k.1 hmm⟩, ⟨fun k => by simp [Ret.bind] at k, fun k => absurd k.1 hmm⟩, .inr ⟨false, rfl⟩⟩

/-- C40: at any depth a variant is equal to itself, and comparing with a variant of the same type gives an answer. -/
theorem C40_deep_same (E : Env) (C : Cmp) {v w : Vnt} {u : CType} {a a' : Addr} (st : Stands v u a) (st' : Stands w u a')
    (na : a ≠ 0) (na' : a' ≠ 0) {m : Nat} (hu : Depth u m) (h16 : 16 ≤ m) (hm : m < 65536) :
    equal E C v v = .ok true ∧ equal E C v w = .ok (decide (a = a' ∨ E.load a = E.load a')) := by
  have nd : ¬DiesOn u u := fun ⟨p, hp, _, h, h'⟩ => h (h' p (Nat.le_refl p) hp)
  have refl : SameDecay u u := (fullDecay_iff _ _).1 rfl
  refine ⟨(C40_deep E C st st na na hu hu (.inl h16) hm hm).2.1.2 ⟨rfl, refl, fun _ _ => Iff.rfl, .inl rfl⟩, ?_⟩
  obtain ⟨h1, h2, h3⟩ := C40_deep E C st st' na na' hu hu (.inl h16) hm hm
  rcases h3 with h | ⟨b, h⟩
  · exact absurd (h1.1 h).2 nd
  · rw [h] at h2 ⊢
    by_cases hx : a = a' ∨ E.load a = E.load a'
    · rw [decide_eq_true hx]; exact h2.2 ⟨rfl, refl, fun _ _ => Iff.rfl, hx⟩
    · rw [decide_eq_false hx]
      cases b with
      | false => rfl
      | true => exact absurd (h2.1 rfl).2.2.2 hx

namespace ExDeep

/-- a variant that holds a 16-fold pointer to `int`; `q`: of the pointers pointed to and of the `int` -/
def var (q : Bool) (self : Addr) : Vnt := ⟨some ⟨false, .ptr Ex.nn (ptrs ⟨q, false⟩ 15 (.base ⟨7, .other, 4, ExV.all⟩ ⟨q, false⟩))⟩, self, 5000⟩

def env : Env := { ExQ.env with load := fun _ => 5000 }

theorem stands (q : Bool) (s : Addr) : Stands (var q s) (.ptr Ex.nn (ptrs ⟨q, false⟩ 15 (.base ⟨7, .other, 4, ExV.all⟩ ⟨q, false⟩))) s :=
  .inPlace (v := var q s) (.ptr Ex.nn (ptrs ⟨q, false⟩ 15 (.base ⟨7, .other, 4, ExV.all⟩ ⟨q, false⟩))) rfl (by simp) (by simp [CType.sizeOf])

theorem sound (q : Bool) (s : Addr) (hs : s ≠ 0) : Sound env (var q s) := by
  refine ⟨hs, rfl, fun t a h => ?_, fun b q' a h => ?_⟩
  · rw [(h.unique (stands q s)).2]; exact hs
  · cases (h.unique (stands q s)).1

end ExDeep

/-- C40 is false at 16 pointers: comparing two variants that hold pointers of types that differ in const only ends the program; the
    other way round they are just unequal. -/
theorem C40_deep_terminate_false : ∃ (E : Env) (C : Cmp) (v w : Vnt) (u u' : CType) (a a' : Addr), Sound E v ∧ Sound E w ∧
    Stands v u a ∧ Stands w u' a' ∧ Depth u 16 ∧ Depth u' 16 ∧ SameDecay u u' ∧ equal E C v w = .terminate ∧ equal E C w v = .ok false :=
  ⟨ExDeep.env, ExQ.cmp, ExDeep.var true 1000, ExDeep.var false 2000, _, _, _, _, ExDeep.sound _ _ (by decide), ExDeep.sound _ _ (by decide),
    ExDeep.stands _ _, ExDeep.stands _ _, (depth_iff _ _).2 rfl, (depth_iff _ _).2 rfl, (fullDecay_iff _ _).1 (by decide +kernel),
    by decide +kernel, by decide +kernel⟩

-- same type, different variants, the same pointer
example : equal ExDeep.env ExQ.cmp (ExDeep.var true 1000) (ExDeep.var true 2000) = .ok true :=
  (C40_deep_same _ _ (ExDeep.stands _ _) (ExDeep.stands _ _) (by decide) (by decide) ((depth_iff _ 16).2 rfl) (by decide) (by decide)).2

end Rtti.Props
