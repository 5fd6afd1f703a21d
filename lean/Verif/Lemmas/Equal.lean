import Verif.Lemmas.ValueTo
import Verif.Spec.Equal
set_option autoImplicit false
namespace Rtti.Val
open Rtti Spec

theorem elem_not_arr (t : CType) : (elem t).isArray = false := by
  induction t with
  | base => rfl
  | ptr => rfl
  | arr n t ih => exact ih

theorem flat_elem (t : CType) : Flat t (len t) (elem t) := by
  induction t with
  | base => exact .base _ _
  | ptr => exact .ptr _ _
  | arr n t ih => exact .arr n ih

theorem Flat.eqs {t e : CType} {n : Nat} (h : Flat t n e) : n = len t ∧ e = elem t := by
  induction h with
  | base => exact ⟨rfl, rfl⟩
  | ptr => exact ⟨rfl, rfl⟩
  | arr n _ ih => obtain ⟨h1, h2⟩ := ih; exact ⟨by rw [h1]; rfl, h2⟩

theorem sizeOf_flat (t : CType) : t.sizeOf = len t * (elem t).sizeOf := by
  induction t with
  | base => simp [len, elem]
  | ptr => simp [len, elem]
  | arr n t ih => simp only [CType.sizeOf, len, elem, ih, Nat.mul_assoc]

theorem removeCv_len (t : CType) : len t.removeCv = len t := by
  induction t <;> simp_all [CType.removeCv, len]
theorem removeCv_elem (t : CType) : elem t.removeCv = (elem t).removeCv := by
  induction t <;> simp_all [CType.removeCv, elem]
theorem removeCv_sizeOf (t : CType) : t.removeCv.sizeOf = t.sizeOf := by
  induction t <;> simp_all [CType.removeCv, CType.sizeOf]

theorem removeAllCv_elem (t : CType) : elem t.removeAllCv = (elem t).removeAllCv := by
  induction t <;> simp_all [CType.removeAllCv, elem]
theorem removeAllCv_sizeOf (t : CType) : t.removeAllCv.sizeOf = t.sizeOf := by
  induction t <;> simp_all [CType.removeAllCv, CType.sizeOf]

theorem removeAllCv_len (t : CType) : len t.removeAllCv = len t := by
  induction t <;> simp_all [CType.removeAllCv, len]

theorem kept_len (t : CType) : len (kept t) = len t := by
  cases t with
  | arr n e => simp [kept, len, removeAllCv_len]
  | base => rfl
  | ptr => rfl
theorem kept_sizeOf (t : CType) : (kept t).sizeOf = t.sizeOf := by
  cases t with
  | arr n e => simp [kept, CType.sizeOf, removeAllCv_sizeOf]
  | base => rfl
  | ptr => rfl
theorem kept_elem (t : CType) : (elem (kept t)).removeAllCv = (elem t).removeAllCv := by
  cases t with
  | arr n e => simp [kept, elem, removeAllCv_elem, removeAllCv_twice]
  | base => rfl
  | ptr => rfl

theorem u_len (h : Held) : len h.u = len h.t := by
  unfold Held.u; split
  · rfl
  · exact kept_len _
theorem u_sizeOf (h : Held) : h.u.sizeOf = h.t.sizeOf := by
  unfold Held.u; split
  · rfl
  · exact kept_sizeOf _
theorem u_elem (h : Held) : (elem h.u).removeAllCv = (elem h.t).removeAllCv := by
  unfold Held.u; split
  · rfl
  · exact kept_elem _

theorem hasEq_iff (t : CType) : hasEq t = true ↔ Comparable (elem t) := by
  unfold hasEq Comparable
  cases h : elem t with
  | base b q => simp
  | ptr => simp
  | arr => simp

theorem elemEq_says (E : Env) (C : Cmp) (e : CType) (he : e.isArray = false) (a b : Addr) :
    elemEq E C e.removeAllCv a b = says E C e a b := by
  cases e with
  | base => rfl
  | ptr => simp [elemEq, says, CType.removeAllCv]; rfl
  | arr => cases he

theorem rangeEq_compared (E : Env) (C : Cmp) (e : CType) (he : e.isArray = false) (size : Nat) :
    ∀ (n room : Nat) (a b : Addr), n * size ≤ room →
      Compared E C e size n a b (rangeEq E C e.removeAllCv size room n a b) := by
  intro n
  induction n with
  | zero => intro room a b _; exact .equal (by simp)
  | succ n ih =>
    intro room a b hr
    rw [Nat.succ_mul] at hr
    unfold rangeEq
    rw [if_neg (by omega), elemEq_says E C e he]
    have step : ∀ i, says E C e (a + (i + 1) * size) (b + (i + 1) * size) =
        says E C e (a + size + i * size) (b + size + i * size) := by
      intro i
      rw [show a + (i + 1) * size = a + size + i * size by rw [Nat.succ_mul]; omega,
        show b + (i + 1) * size = b + size + i * size by rw [Nat.succ_mul]; omega]
    have ext : ∀ k, says E C e a b = some true →
        (∀ i, i < k → says E C e (a + size + i * size) (b + size + i * size) = some true) →
        ∀ i, i < k + 1 → says E C e (a + i * size) (b + i * size) = some true := by
      intro k h0 h i hi
      cases i with
      | zero => simpa using h0
      | succ i => rw [step]; exact h i (by omega)
    cases hs : says E C e a b with
    | none => exact .throws 0 (by omega) (by simp) (by simpa using hs)
    | some r =>
      cases r with
      | false => exact .differ 0 (by omega) (by simp) (by simpa using hs)
      | true =>
        simp only [lift, Ret.bind, if_true]
        have := ih (room - size) (a + size) (b + size) (by omega)
        generalize rangeEq E C e.removeAllCv size (room - size) n (a + size) (b + size) = R at this
        cases this with
        | equal h => exact .equal (ext n hs h)
        | differ k hk h1 h2 => exact .differ (k + 1) (by omega) (ext k hs h1) (by rw [step]; exact h2)
        | throws k hk h1 h2 => exact .throws (k + 1) (by omega) (ext k hs h1) (by rw [step]; exact h2)

theorem Compared.unique {E : Env} {C : Cmp} {e : CType} {size n : Nat} {a b : Addr} {R R' : Ret Bool}
    (h : Compared E C e size n a b R) (h' : Compared E C e size n a b R') : R = R' := by
  cases h with
  | equal h1 =>
    cases h' with
    | equal => rfl
    | differ k hk _ h2 => rw [h1 k hk] at h2; cases h2
    | throws k hk _ h2 => rw [h1 k hk] at h2; cases h2
  | differ k hk h1 h2 =>
    cases h' with
    | equal h3 => rw [h3 k hk] at h2; cases h2
    | differ => rfl
    | throws k' hk' h3 h4 =>
      rcases Nat.lt_trichotomy k k' with h | h | h
      · rw [h3 k h] at h2; cases h2
      · subst h; rw [h2] at h4; cases h4
      · rw [h1 k' h] at h4; cases h4
  | throws k hk h1 h2 =>
    cases h' with
    | equal h3 => rw [h3 k hk] at h2; cases h2
    | differ k' hk' h3 h4 =>
      rcases Nat.lt_trichotomy k k' with h | h | h
      · rw [h3 k h] at h2; cases h2
      · subst h; rw [h2] at h4; cases h4
      · rw [h1 k' h] at h4; cases h4
    | throws => rfl

theorem Compared.quiet {E : Env} {C : Cmp} {e : CType} {size n : Nat} {a b : Addr} {R : Ret Bool} (h : Compared E C e size n a b R) :
    (∃ b, R = .ok b) ∨ ∃ e, R = .throw e := by
  cases h with
  | equal => exact .inl ⟨_, rfl⟩
  | differ => exact .inl ⟨_, rfl⟩
  | throws => exact .inr ⟨_, rfl⟩

theorem leaves_throw {t u : CType} (h : t.isArray = u.isArray) (e : Exc) : Leaves u (.throw e) (noThrow t (.throw e)) := by
  unfold noThrow
  cases u with
  | arr n t' => rw [h]; exact .array n t' e
  | base => rw [h]; exact .other e nofun
  | ptr => rw [h]; exact .other e nofun

theorem leaves_of {t u : CType} (h : t.isArray = u.isArray) {R : Ret Bool} (hR : (∃ b, R = .ok b) ∨ ∃ e, R = .throw e) :
    Leaves u R (noThrow t R) := by
  rcases hR with ⟨b, rfl⟩ | ⟨e, rfl⟩
  · exact .ok u b
  · exact leaves_throw h e

theorem Leaves.unique {u : CType} {R S S' : Ret Bool} (h : Leaves u R S) (h' : Leaves u R S') : S = S' := by
  cases h with
  | array n t e =>
    cases h' with
    | array => rfl
    | other _ h => exact absurd rfl (h _ _)
  | other e h =>
    cases h' with
    | array => exact absurd rfl (h _ _)
    | other => rfl
  | ok => cases h'; rfl

theorem Leaves.ok_iff {u : CType} {R : Ret Bool} {b : Bool} : Leaves u R (.ok b) ↔ R = .ok b := by
  constructor
  · intro h; cases h; rfl
  · rintro rfl; exact .ok _ _

theorem object_left {v : Vnt} {h : Held} (e : v.held = some h) {u : CType} {a : Addr} (st : Stands v u a) :
    (if h.inPlace then v.self else v.ptr) = a := by
  cases st with
  | inPlace t e' h1 h2 =>
    rw [e] at e'; cases e'
    have := (not_arr_iff t).1 h1
    simp [Held.inPlace, this, h2]
  | heap t e' h1 h2 =>
    rw [e] at e'; cases e'
    have : ¬ t.sizeOf ≤ 16 := by omega
    simp [Held.inPlace, this]
  | array n el e' =>
    rw [e] at e'; cases e'
    simp [Held.inPlace, CType.isArray]
  | ref _ e' =>
    rw [e] at e'; cases e'
    simp [Held.inPlace]

theorem object_right {v : Vnt} {h : Held} (e : v.held = some h) {u : CType} {a : Addr} (st : Stands v u a) :
    (if h.t.isArray then v.ptr else v.access) = a := by
  obtain ⟨h', e', hu⟩ := st.held
  rw [e] at e'; cases e'
  have hua : u.isArray = h.t.isArray := by rw [hu, u_isArray]
  cases ha : h.t.isArray with
  | true => simp only [if_true]; exact ((st.access).2 (hua.trans ha)).2.symm
  | false => simp only [Bool.false_eq_true, if_false]; exact (st.access).1 (hua.trans ha)

/-- the elements of two types of the same decay, both arrays or neither, are the same up to cv -/
theorem sameDecay_elem {s t : CType} (hd : SameDecay s t) (ha : s.isArray = t.isArray)
    (hf : ∀ b q, s = .base b q → b.kind ≠ .func) (hf' : ∀ b q, t = .base b q → b.kind ≠ .func) :
    (elem s).removeAllCv = (elem t).removeAllCv ∧ (elem s).sizeOf = (elem t).sizeOf := by
  have key : (elem s).removeAllCv = (elem t).removeAllCv := by
    have hd' := (fullDecay_iff _ _).2 hd
    cases s with
    | base b q =>
      have hb := hf b q rfl
      rcases hd with ⟨_, _, h, _⟩ | ⟨b', q1, q2, _, e1, e2⟩
      · cases h with | func _ _ h => exact absurd h hb
      · cases e1; subst e2; rfl
    | ptr q s =>
      cases t with
      | base b q' =>
        rcases hd with ⟨_, e', _, h, h'⟩ | ⟨b', q1, q2, _, e1, e2⟩
        · cases h with
          | func _ _ h => exact absurd h (hf' _ _ rfl)
        · cases e1
      | ptr q' t => exact hd'
      | arr => cases ha
    | arr n s =>
      cases t with
      | base => cases ha
      | ptr => cases ha
      | arr m t =>
        simp only [CType.fullDecay, CType.decay, CType.removeAllCv, CType.ptr.injEq, true_and] at hd'
        simp only [elem]
        rw [← removeAllCv_elem, ← removeAllCv_elem, hd']
  exact ⟨key, by rw [← removeAllCv_sizeOf (elem s), key, removeAllCv_sizeOf]⟩

theorem equal_some {E : Env} {C : Cmp} {v w : Vnt} {u u' : CType} {a a' : Addr} (st : Stands v u a) (st' : Stands w u' a')
    (hu : Shallow u) (hu' : Shallow u') :
    (Fits ⟨.lref, addConst u'⟩ ⟨.lref, addConst u⟩ ∧ SameDecay u u' ∧ ∃ t rt, equal E C v w = noThrow t (compareEq E C t rt a a') ∧
      t.isArray = u.isArray ∧ len t = len u ∧ (elem t).removeAllCv = (elem u).removeAllCv ∧ rt.sizeOf = u'.sizeOf ∧
      (elem rt).removeAllCv = (elem u').removeAllCv) ∨
    (¬(Fits ⟨.lref, addConst u'⟩ ⟨.lref, addConst u⟩ ∧ SameDecay u u') ∧ equal E C v w = .ok false) := by
  obtain ⟨h, e, rfl⟩ := st.held
  obtain ⟨g, e', rfl⟩ := st'.held
  have sh : ∀ {u : CType}, Shallow u → Shallow (⟨.lref, addConst u⟩ : RType).t := fun h => by
    unfold Shallow; rw [addConst_arity]; exact h
  unfold equal
  rw [e, e']
  simp only
  rw [object_left e st, object_right e' st', type_fullDecay, type_fullDecay]
  rcases compat_cases ⟨.lref, addConst g.u⟩ ⟨.lref, addConst h.u⟩ (sh hu') (sh hu) with ⟨hf, _, ec⟩ | ⟨hf, _, ec⟩
  · rw [show compat (g.type .lrefConst) (h.type .lrefConst) = _ from ec]
    simp only [Ret.bind, Bool.true_and, decide_eq_true_eq]
    by_cases hd : g.u.fullDecay = h.u.fullDecay
    · rw [if_pos hd]
      exact .inl ⟨hf, (fullDecay_iff _ _).1 hd.symm, h.t, g.t, rfl, (u_isArray h).symm, (u_len h).symm, (u_elem h).symm, (u_sizeOf g).symm,
        (u_elem g).symm⟩
    · rw [if_neg hd]
      refine .inr ⟨fun k => hd ((fullDecay_iff _ _).2 k.2).symm, rfl⟩
  · rw [show compat (g.type .lrefConst) (h.type .lrefConst) = _ from ec]
    exact .inr ⟨fun k => hf k.1, rfl⟩

theorem comparable_removeAllCv (e : CType) : Comparable e.removeAllCv ↔ Comparable e := by
  unfold Comparable
  cases e with
  | base b q =>
    simp only [CType.removeAllCv, CType.base.injEq]
    constructor
    · rintro h b' q' ⟨rfl, _⟩; exact h _ _ ⟨rfl, rfl⟩
    · rintro h b' q' ⟨rfl, _⟩; exact h _ _ ⟨rfl, rfl⟩
  | ptr => simp [CType.removeAllCv]
  | arr => simp [CType.removeAllCv]

theorem hasEq_congr {s t : CType} (h : (elem s).removeAllCv = (elem t).removeAllCv) : hasEq s = hasEq t := by
  rw [Bool.eq_iff_iff, hasEq_iff, hasEq_iff, ← comparable_removeAllCv, h, comparable_removeAllCv]

theorem fits_size {S T : RType} (hS : Shallow S.t) (hT : Shallow T.t) (h : Fits S T) :
    S.t.isArray = true → T.t.isArray = true → T.t.sizeOf ≤ S.t.sizeOf := by
  rcases compat_cases S T hS hT with ⟨_, c, _⟩ | ⟨h', _⟩
  · exact c.size
  · exact absurd h h'

/-- comparing two arrays, or two objects that are not arrays -/
theorem equal_compared' {E : Env} {C : Cmp} {v w : Vnt} {u u' : CType} {a a' : Addr} (na : a ≠ 0) (na' : a' ≠ 0)
    (nf : ∀ b q, u = .base b q → b.kind ≠ .func) (nf' : ∀ b q, u' = .base b q → b.kind ≠ .func)
    (st : Stands v u a) (st' : Stands w u' a') (hu : Shallow u) (hu' : Shallow u')
    (hf : Fits ⟨.lref, addConst u'⟩ ⟨.lref, addConst u⟩) (hd : SameDecay u u') (ha : u.isArray = u'.isArray) :
    (¬Comparable (elem u) ∧ Leaves u (.throw .runtimeError) (equal E C v w)) ∨
    (Comparable (elem u) ∧ ((a = a' ∧ equal E C v w = .ok true) ∨
      (a ≠ a' ∧ ∃ R, Compared E C (elem u) (elem u).sizeOf (len u) a a' R ∧ Leaves u R (equal E C v w)))) := by
  rcases equal_some (E := E) (C := C) st st' hu hu' with ⟨_, _, t, rt, e, h0, h1, h2, h3, h4⟩ | ⟨h, _⟩
  · rw [e]
    unfold compareEq
    rw [hasEq_congr h2]
    cases hq : hasEq u with
    | false =>
      left
      refine ⟨fun h => ?_, leaves_throw h0 _⟩
      rw [← hasEq_iff, hq] at h; cases h
    | true =>
      right
      refine ⟨(hasEq_iff _).1 hq, ?_⟩
      simp only [Bool.not_true, Bool.false_eq_true, if_false]
      by_cases haa : a = a'
      · exact .inl ⟨haa, by rw [if_pos haa]; rfl⟩
      · right
        refine ⟨haa, ?_⟩
        obtain ⟨k1, k2⟩ := sameDecay_elem hd ha nf nf'
        rw [if_neg haa, if_neg (by simp [na, na']), if_neg (by rw [h2, h4, k1]; simp)]
        have hsz : (elem t).sizeOf = (elem u).sizeOf := by rw [← removeAllCv_sizeOf (elem t), h2, removeAllCv_sizeOf]
        rw [h1, h2, hsz, h3]
        have hR := rangeEq_compared E C (elem u) (elem_not_arr u) (elem u).sizeOf (len u) u'.sizeOf a a' ?_
        · exact ⟨_, hR, leaves_of h0 hR.quiet⟩
        rw [← sizeOf_flat]
        have sh : ∀ {u : CType}, Shallow u → Shallow (⟨.lref, addConst u⟩ : RType).t := fun h => by
          unfold Shallow; rw [addConst_arity]; exact h
        cases hau : u.isArray with
        | true =>
          have := fits_size (sh hu') (sh hu) hf (by simp only [addConst_isArray]; rw [← ha, hau]) (by simp only [addConst_isArray]; exact hau)
          simpa only [addConst_sizeOf] using this
        | false =>
          have l1 : ∀ {t : CType}, t.isArray = false → len t = 1 := by intro t h; cases t <;> first | rfl | cases h
          rw [sizeOf_flat u, sizeOf_flat u', l1 hau, l1 (ha ▸ hau), k2]
          exact Nat.le_refl _
  · exact absurd ⟨hf, hd⟩ h

/-- comparing two arrays, or two objects that are not arrays -/
theorem equal_compared {E : Env} {C : Cmp} {v w : Vnt} (sv : Sound E v) (sw : Sound E w) {u u' : CType} {a a' : Addr}
    (st : Stands v u a) (st' : Stands w u' a') (hu : Shallow u) (hu' : Shallow u')
    (hf : Fits ⟨.lref, addConst u'⟩ ⟨.lref, addConst u⟩) (hd : SameDecay u u') (ha : u.isArray = u'.isArray) :
    (¬Comparable (elem u) ∧ Leaves u (.throw .runtimeError) (equal E C v w)) ∨
    (Comparable (elem u) ∧ ((a = a' ∧ equal E C v w = .ok true) ∨
      (a ≠ a' ∧ ∃ R, Compared E C (elem u) (elem u).sizeOf (len u) a a' R ∧ Leaves u R (equal E C v w)))) :=
  equal_compared' (sv.object _ _ st) (sw.object _ _ st') (fun b q h => sv.nofunc b q a (h ▸ st)) (fun b q h => sw.nofunc b q a' (h ▸ st'))
    st st' hu hu' hf hd ha

theorem sameTop_iff (s t : CType) : SameTop s t ↔ s.removeCv = t.removeCv := by
  constructor
  · intro h; induction h <;> simp_all [CType.removeCv]
  · intro h
    induction s generalizing t with
    | base b q => cases t <;> simp [CType.removeCv] at h; subst h; exact .base _ _ _
    | ptr q s => cases t <;> simp [CType.removeCv] at h; subst h; exact .ptr _ _ _
    | arr n s ih =>
      cases t with
      | arr m t =>
        simp [CType.removeCv] at h
        obtain ⟨rfl, h⟩ := h
        exact .arr n (ih t h)
      | base => simp [CType.removeCv] at h
      | ptr => simp [CType.removeCv] at h

theorem SameTop.symm {s t : CType} (h : SameTop s t) : SameTop t s := (sameTop_iff _ _).2 ((sameTop_iff _ _).1 h).symm
theorem SameTop.trans {s t u : CType} (h : SameTop s t) (h' : SameTop t u) : SameTop s u :=
  (sameTop_iff _ _).2 (((sameTop_iff _ _).1 h).trans ((sameTop_iff _ _).1 h'))

theorem SameTop.facts {s t : CType} (h : SameTop s t) : s.isArray = t.isArray ∧ len s = len t ∧ (elem s).sizeOf = (elem t).sizeOf ∧
    (elem s).removeCv = (elem t).removeCv ∧ s.pointerArity = t.pointerArity ∧ s.fullDecay = t.fullDecay := by
  have := (sameTop_iff _ _).1 h
  refine ⟨by rw [← removeCv_isArray s, this, removeCv_isArray], by rw [← removeCv_len s, this, removeCv_len],
    by rw [← removeCv_sizeOf (elem s), ← removeCv_elem, this, removeCv_elem, removeCv_sizeOf],
    by rw [← removeCv_elem, this, removeCv_elem], by rw [← removeCv_arity s, this, removeCv_arity],
    by rw [← removeCv_fullDecay s, this, removeCv_fullDecay]⟩

theorem SameTop.mask {s t : CType} (h : SameTop s t) : (addConst s).constBitset = (addConst t).constBitset := by
  cases h with
  | base b q q' => rfl
  | ptr q q' t => rfl
  | arr n h =>
    simp [addConst, CType.constBitset, CType.constBitsetHelper, CType.isConst, addConst_isConst, CType.pointerArity]

theorem SameTop.fits {s t : CType} (h : SameTop s t) (hs : Shallow s) : Fits ⟨.lref, addConst s⟩ ⟨.lref, addConst t⟩ := by
  obtain ⟨h1, h2, h3, h4, h5, h6⟩ := h.facts
  have sh : Shallow (⟨.lref, addConst s⟩ : RType).t := by unfold Shallow; rw [addConst_arity]; exact hs
  have sh' : Shallow (⟨.lref, addConst t⟩ : RType).t := by unfold Shallow; rw [addConst_arity, ← h5]; exact hs
  rcases compat_cases _ _ sh sh' with ⟨h, _⟩ | ⟨_, h', _⟩
  · exact h
  · exfalso
    apply h'
    have hnp : ((addConst s).isArray && (addConst t).isPointer) = false := by
      rw [addConst_isArray, addConst_isPointer, h1]
      cases t <;> rfl
    have ea : effArity ⟨.lref, addConst s⟩ ⟨.lref, addConst t⟩ = (addConst s).pointerArity := by
      unfold effArity; simp only [hnp]; rfl
    refine ⟨fun _ => .inl rfl, nofun, ?_, ?_, .inr ?_⟩
    · intro _ _
      simp only [addConst_sizeOf]
      rw [sizeOf_flat s, sizeOf_flat t, h2, h3]
      exact Nat.le_refl _
    · rw [ea]; simp only [addConst_arity]; exact h5
    · have eb : effBit ⟨.lref, addConst s⟩ ⟨.lref, addConst t⟩ = (addConst t).constBitset.testBit := by
        funext i
        unfold effBit
        simp only [addConst_isArray, h1, h.mask]
        cases t.isArray <;> simp
      rw [eb]
      intro i _
      exact ⟨id, fun h h' => by rw [h] at h'; cases h'⟩

theorem says_congr {E : Env} {C : Cmp} {e e' : CType} (h : e.removeCv = e'.removeCv) (a b : Addr) :
    says E C e a b = says E C e' a b := by
  cases e <;> cases e' <;> simp_all [CType.removeCv, says]

end Rtti.Val
