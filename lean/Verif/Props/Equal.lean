import Verif.Lemmas.Equal
import Verif.Props.Value
/-
C40, C41, C60: comparing and hashing variants.
-/
set_option autoImplicit false
namespace Rtti.Props
open Rtti Spec Val

/-! ### C40 -/

/-- C40: an empty variant is equal to empty variants only. -/
theorem C40_empty (E : Env) (C : Cmp) (v w : Vnt) (h : v.held = none) :
    (w.held = none → equal E C v w = .ok true) ∧
    (w.held ≠ none → equal E C v w = .ok false ∧ equal E C w v = .ok false) := by
  unfold equal
  rw [h]
  cases hw : w.held <;> simp

/-- C40: variants of different decayed types are unequal. -/
theorem C40_other_type_partial (E : Env) (C : Cmp) {v w : Vnt} {u u' : CType} {a a' : Addr} (st : Stands v u a) (st' : Stands w u' a')
    (hu : Shallow u) (hu' : Shallow u') (hd : ¬SameDecay u u') : equal E C v w = .ok false := by
  rcases equal_some (E := E) (C := C) st st' hu hu' with ⟨_, h, _⟩ | ⟨_, h⟩
  · exact absurd h hd
  · exact h

theorem equal_true {E : Env} {C : Cmp} {v w : Vnt} (sv : Sound E v) (sw : Sound E w) {u u' : CType} {a a' : Addr}
    (st : Stands v u a) (st' : Stands w u' a') (hu : Shallow u) (hu' : Shallow u') (ha : u.isArray = u'.isArray) :
    equal E C v w = .ok true ↔ Fits ⟨.lref, addConst u'⟩ ⟨.lref, addConst u⟩ ∧ SameDecay u u' ∧ Comparable (elem u) ∧
      (a = a' ∨ ∀ i, i < len u → says E C (elem u) (a + i * (elem u).sizeOf) (a' + i * (elem u).sizeOf) = some true) := by
  rcases equal_some (E := E) (C := C) st st' hu hu' with ⟨hf, hd, _⟩ | ⟨h, e⟩
  · rcases equal_compared (C := C) sv sw st st' hu hu' hf hd ha with ⟨h1, h2⟩ | ⟨h1, ⟨h2, h3⟩ | ⟨h2, R, h3, h3'⟩⟩
    · constructor
      · intro e; rw [e] at h2; cases h2
      · rintro ⟨_, _, h, _⟩; exact absurd h h1
    · rw [h3]; simp [hf, hd, h1, h2]
    · constructor
      · intro e
        rw [e] at h3'
        cases Leaves.ok_iff.1 h3'
        cases h3 with
        | equal h => exact ⟨hf, hd, h1, .inr h⟩
      · rintro ⟨_, _, _, h | h⟩
        · exact absurd h h2
        · cases h3.unique (.equal h); exact h3'.unique (.ok _ _)
  · rw [e]
    constructor
    · intro h; cases h
    · rintro ⟨h1, h2, _⟩; exact absurd ⟨h1, h2⟩ h

/-- C40: two variants of the same type (apart from the outermost const): equality is that of the objects, by `==` of their
    type (of all elements, in order); the same object is equal to itself; exceptions go through, except for arrays
    (`C40_array_terminate_false`); a type without `==` throws `runtime_error`, likewise. Missing (`_partial`): types with 16
    pointers and more; types that differ inside (`C40_asymmetric_false`). -/
theorem C40_same_type_partial {E : Env} (C : Cmp) {v w : Vnt} (sv : Sound E v) (sw : Sound E w) {u u' : CType} {a a' : Addr}
    (st : Stands v u a) (st' : Stands w u' a') (hu : Shallow u) (ht : SameTop u u') (n : Nat) (e : CType) (hn : Flat u n e) :
    (¬Comparable e → Leaves u (.throw .runtimeError) (equal E C v w)) ∧
    (Comparable e → a = a' → equal E C v w = .ok true) ∧
    (Comparable e → a ≠ a' → ∃ R, Compared E C e e.sizeOf n a a' R ∧ Leaves u R (equal E C v w)) := by
  obtain ⟨rfl, rfl⟩ := hn.eqs
  obtain ⟨h1, h2, h3, h4, h5, h6⟩ := ht.facts
  have hu' : Shallow u' := by unfold Shallow at *; rw [← h5]; exact hu
  have hf := ht.symm.fits hu'
  have hd := (fullDecay_iff _ _).1 h6
  rcases equal_compared (C := C) sv sw st st' hu hu' hf hd h1 with ⟨k1, k2⟩ | ⟨k1, ⟨k2, k3⟩ | ⟨k2, R, k3, k4⟩⟩
  · exact ⟨fun _ => k2, fun h => absurd h k1, fun h => absurd h k1⟩
  · exact ⟨fun h => absurd k1 h, fun _ _ => k3, fun _ h => absurd k2 h⟩
  · exact ⟨fun h => absurd k1 h, fun _ h => absurd h k2, fun _ _ => ⟨R, k3, k4⟩⟩

/-- C40: two variants of the same type that is no array: what `==` of the objects says or throws. -/
theorem C40_object_partial {E : Env} (C : Cmp) {v w : Vnt} (sv : Sound E v) (sw : Sound E w) {u u' : CType} {a a' : Addr}
    (st : Stands v u a) (st' : Stands w u' a') (hu : Shallow u) (ht : SameTop u u') (ha : ∀ n t, u ≠ .arr n t) :
    (¬Comparable u → equal E C v w = .throw .runtimeError) ∧
    (Comparable u → a = a' → equal E C v w = .ok true) ∧
    (Comparable u → a ≠ a' → equal E C v w = match says E C u a a' with | some b => .ok b | none => .throw .user) := by
  have hn : Flat u 1 u := by cases u with
    | base => exact .base _ _
    | ptr => exact .ptr _ _
    | arr n t => exact absurd rfl (ha n t)
  obtain ⟨h1, h2, h3⟩ := C40_same_type_partial C sv sw st st' hu ht 1 u hn
  refine ⟨fun h => (h1 h).unique (.other _ ha), h2, fun h h' => ?_⟩
  obtain ⟨R, h4, h5⟩ := h3 h h'
  cases h4 with
  | equal k => have := k 0 (by omega); simp at this; rw [this]; exact h5.unique (.ok _ _)
  | differ k hk _ k2 => cases (show k = 0 by omega); simp at k2; rw [k2]; exact h5.unique (.ok _ _)
  | throws k hk _ k2 => cases (show k = 0 by omega); simp at k2; rw [k2]; exact h5.unique (.other _ ha)

/-- C40: reflexive, whatever the type's own `==` says: the object is the same. -/
theorem C40_reflexive_partial {E : Env} (C : Cmp) {v : Vnt} (sv : Sound E v) {u : CType} {a : Addr} (st : Stands v u a) (hu : Shallow u)
    (n : Nat) (e : CType) (hn : Flat u n e) (he : Comparable e) : equal E C v v = .ok true :=
  (C40_same_type_partial C sv sv st st hu ((sameTop_iff _ _).2 rfl) n e hn).2.1 he rfl

/-- C40: symmetric for variants of the same type apart from the outermost const, if `==` of that type is. -/
theorem C40_symmetric_partial {E : Env} (C : Cmp) {v w : Vnt} (sv : Sound E v) (sw : Sound E w) {u u' : CType} {a a' : Addr}
    (st : Stands v u a) (st' : Stands w u' a') (hu : Shallow u) (ht : SameTop u u') (n : Nat) (e : CType) (hn : Flat u n e)
    (hs : ∀ x y, says E C e x y = some true → says E C e y x = some true)
    (h : equal E C v w = .ok true) : equal E C w v = .ok true := by
  obtain ⟨rfl, rfl⟩ := hn.eqs
  obtain ⟨h1, h2, h3, h4, h5, h6⟩ := ht.facts
  have hu' : Shallow u' := by unfold Shallow at *; rw [← h5]; exact hu
  rw [equal_true sv sw st st' hu hu' h1] at h
  rw [equal_true sw sv st' st hu' hu h1.symm]
  obtain ⟨_, k2, k3, k4⟩ := h
  refine ⟨ht.fits hu, SameDecay.symm k2, ?_, ?_⟩
  · rw [← comparable_removeAllCv, ← removeCv_removeAllCv, ← h4, removeCv_removeAllCv, comparable_removeAllCv]; exact k3
  · refine k4.imp Eq.symm fun k4 i hi => ?_
    rw [← h3, ← says_congr h4]
    exact hs _ _ (k4 i (by omega))

/-- C40: transitive for any three variants that are all arrays or all no arrays, if `==` of the type is. Missing: mixtures of
    pointers and arrays (`C40_pointer_array_false`). -/
theorem C40_transitive_partial {E : Env} (C : Cmp) {v w x : Vnt} (sv : Sound E v) (sw : Sound E w) (sx : Sound E x)
    {u u' u'' : CType} {a a' a'' : Addr} (st : Stands v u a) (st' : Stands w u' a') (st'' : Stands x u'' a'')
    (hu : Shallow u) (hu' : Shallow u') (hu'' : Shallow u'') (ha : u.isArray = u'.isArray) (ha' : u'.isArray = u''.isArray)
    (wf : NoFuncArray u ∧ NoFuncArray u' ∧ NoFuncArray u'')
    (n : Nat) (e : CType) (hn : Flat u n e) (hsz : 0 < e.sizeOf)
    (hs : ∀ p q r, says E C e p q = some true → says E C e q r = some true → says E C e p r = some true)
    (h : equal E C v w = .ok true) (h' : equal E C w x = .ok true) : equal E C v x = .ok true := by
  obtain ⟨rfl, rfl⟩ := hn.eqs
  rw [equal_true sv sw st st' hu hu' ha] at h
  rw [equal_true sw sx st' st'' hu' hu'' ha'] at h'
  rw [equal_true sv sx st st'' hu hu'' (ha.trans ha')]
  obtain ⟨f1, d1, c1, e1⟩ := h
  obtain ⟨f2, d2, c2, e2⟩ := h'
  have nf : ∀ {v : Vnt} {u : CType} {a : Addr}, Sound E v → Stands v u a → ∀ b q, u = .base b q → b.kind ≠ .func :=
    fun s st b q h => s.nofunc b q _ (h ▸ st)
  obtain ⟨k1, k2⟩ := sameDecay_elem d1 ha (nf sv st) (nf sw st')
  have d12 : SameDecay u u'' := (fullDecay_iff _ _).1 (((fullDecay_iff _ _).2 d1).trans ((fullDecay_iff _ _).2 d2))
  have wfc : ∀ {t : CType}, NoFuncArray t → NoFuncArray (addConst t) := by
    intro t h n b q e
    cases t with
    | base => cases e
    | ptr => cases e
    | arr m t =>
      cases t with
      | base b' q' => cases e; exact h _ _ _ rfl
      | ptr => cases e
      | arr => cases e
  have sd : ∀ {s t : CType}, SameDecay s t → SameDecay (addConst s) (addConst t) := by
    intro s t h
    rw [← fullDecay_iff, addConst_fullDecay, addConst_fullDecay, fullDecay_iff]; exact h
  have sh : ∀ {u : CType}, Shallow u → (addConst u).pointerArity < 16 := fun h => by rw [addConst_arity]; exact h
  refine ⟨C09_transitive ⟨.lref, addConst u''⟩ ⟨.lref, addConst u'⟩ ⟨.lref, addConst u⟩ (sd (SameDecay.symm d2)) (sd (SameDecay.symm d1))
    (wfc wf.2.2) (wfc wf.2.1) (wfc wf.1) (sh hu'') (sh hu') (sh hu) (.inl (by simp)) f2 f1, d12, c1, ?_⟩
  rcases e1 with rfl | e1
  · -- the first two are the same object
    rcases e2 with rfl | e2
    · exact .inl rfl
    · right
      intro i hi
      have hl : len u ≤ len u' := by
        cases hau : u.isArray with
        | false =>
          have l1 : ∀ {t : CType}, t.isArray = false → len t = 1 := by intro t h; cases t <;> first | rfl | cases h
          rw [l1 hau, l1 (ha ▸ hau)]; exact Nat.le_refl _
        | true =>
          have := fits_size (S := ⟨.lref, addConst u'⟩) (T := ⟨.lref, addConst u⟩) (sh hu') (sh hu) f1
            (by simp only [addConst_isArray]; rw [← ha, hau]) (by simp only [addConst_isArray]; exact hau)
          simp only [addConst_sizeOf] at this
          rw [sizeOf_flat u, sizeOf_flat u', k2] at this
          exact Nat.le_of_mul_le_mul_right this (k2 ▸ hsz)
      have := e2 i (by omega)
      rw [← k2] at this
      rw [← this]
      have eq1 := elemEq_says E C (elem u) (elem_not_arr u) (a + i * (elem u).sizeOf) (a'' + i * (elem u).sizeOf)
      have eq2 := elemEq_says E C (elem u') (elem_not_arr u') (a + i * (elem u).sizeOf) (a'' + i * (elem u).sizeOf)
      rw [← eq1, ← eq2, k1]
  · rcases e2 with rfl | e2
    · exact .inr e1
    · right
      intro i hi
      have hl : len u ≤ len u' := by
        cases hau : u.isArray with
        | false =>
          have l1 : ∀ {t : CType}, t.isArray = false → len t = 1 := by intro t h; cases t <;> first | rfl | cases h
          rw [l1 hau, l1 (ha ▸ hau)]; exact Nat.le_refl _
        | true =>
          have := fits_size (S := ⟨.lref, addConst u'⟩) (T := ⟨.lref, addConst u⟩) (sh hu') (sh hu) f1
            (by simp only [addConst_isArray]; rw [← ha, hau]) (by simp only [addConst_isArray]; exact hau)
          simp only [addConst_sizeOf] at this
          rw [sizeOf_flat u, sizeOf_flat u', k2] at this
          exact Nat.le_of_mul_le_mul_right this (k2 ▸ hsz)
      have h2 := e2 i (by omega)
      rw [← k2] at h2
      refine hs _ _ _ (e1 i hi) ?_
      rw [← h2]
      have eq1 := elemEq_says E C (elem u) (elem_not_arr u) (a' + i * (elem u).sizeOf) (a'' + i * (elem u).sizeOf)
      have eq2 := elemEq_says E C (elem u') (elem_not_arr u') (a' + i * (elem u).sizeOf) (a'' + i * (elem u).sizeOf)
      rw [← eq1, ← eq2, k1]

namespace ExQ

def ch : CType := .base ⟨7, .other, 1, ExV.all⟩ ⟨false, false⟩
/-- compares bytes -/
def cmp : Cmp where
  eq _ a b := some (decide ((if 5000 ≤ a then (a % 1000) / 2 else a) = (if 5000 ≤ b then (b % 1000) / 2 else b)))
  eqTmp _ _ _ _ := some true
  byte a := a

/-- `char[n]` at the address -/
def arr (n a : Nat) : Vnt := ⟨some ⟨false, .arr n ch⟩, 1000, a⟩
def ptr (c : Bool) : Vnt := ⟨some ⟨false, .ptr ⟨false, false⟩ (.base ⟨7, .other, 1, ExV.all⟩ ⟨c, false⟩)⟩, 1000, 5000⟩
def env : Env := { ExV.env with load := fun a => if a = 1000 then 5000 else 0, conv := fun _ _ => none }

theorem sound_arr (n a : Nat) (h : a ≠ 0) (h' : env.load 1000 = a) : Sound env (arr n a) := by
  have st : Stands (arr n a) (.arr n ch) a := .array n ch rfl
  refine ⟨by simp [arr], h', fun t x hx => ?_, fun b q x hx => ?_⟩
  · rw [(hx.unique st).2]; exact h
  · obtain ⟨e, _⟩ := hx.unique st; cases e

theorem sound_ptr (c : Bool) : Sound env (ptr c) := by
  have st : Stands (ptr c) (.ptr ⟨false, false⟩ (.base ⟨7, .other, 1, ExV.all⟩ ⟨c, false⟩)) 1000 :=
    .inPlace (.ptr ⟨false, false⟩ (.base ⟨7, .other, 1, ExV.all⟩ ⟨c, false⟩)) rfl (by simp) (by cases c <;> decide)
  refine ⟨by simp [ptr], rfl, fun t x hx => ?_, fun b q x hx => ?_⟩
  · rw [(hx.unique st).2]; decide
  · obtain ⟨e, _⟩ := hx.unique st; cases e

end ExQ

/-- C40 is false: `char const *` and `char *` compare differently from the left and from the right, and so do arrays of different
    length. -/
theorem C40_asymmetric_false :
    (∃ (E : Env) (C : Cmp) (v w : Vnt), Sound E v ∧ Sound E w ∧ (∃ q q' b a, Stands v (.ptr q (.base b q')) a) ∧
      (∃ q q' b a, Stands w (.ptr q (.base b q')) a) ∧ equal E C v w = .ok true ∧ equal E C w v = .ok false) ∧
    (∃ (E : Env) (C : Cmp) (v w : Vnt), Sound E v ∧ Sound E w ∧ (∃ n e a, Stands v (.arr n e) a) ∧
      (∃ n e a, Stands w (.arr n e) a) ∧ equal E C v w = .ok true ∧ equal E C w v = .ok false) := by
  refine ⟨⟨ExQ.env, ExQ.cmp, ExQ.ptr true, ExQ.ptr false, ExQ.sound_ptr _, ExQ.sound_ptr _,
    ⟨_, _, _, _, .inPlace (.ptr ⟨false, false⟩ (.base ⟨7, .other, 1, ExV.all⟩ ⟨true, false⟩)) rfl (by simp) (by decide)⟩,
    ⟨_, _, _, _, .inPlace (.ptr ⟨false, false⟩ (.base ⟨7, .other, 1, ExV.all⟩ ⟨false, false⟩)) rfl (by simp) (by decide)⟩,
    by decide +kernel, by decide +kernel⟩, ?_⟩
  exact ⟨ExQ.env, ExQ.cmp, ExQ.arr 2 5000, ExQ.arr 3 5000, ExQ.sound_arr _ _ (by decide) rfl, ExQ.sound_arr _ _ (by decide) rfl,
    ⟨_, _, _, .array 2 ExQ.ch rfl⟩, ⟨_, _, _, .array 3 ExQ.ch rfl⟩, by decide +kernel, by decide +kernel⟩

/-- C40 is false: comparing a variant holding a `char const *` with one holding a `char[3]` reads the characters as if they were a
    pointer. The other way round is harmless. -/
theorem C40_pointer_array_false : ∃ (E : Env) (C : Cmp) (v w : Vnt), Sound E v ∧ Sound E w ∧
    (∃ q b a, Stands v (.ptr q b) a) ∧ (∃ n e a, Stands w (.arr n e) a) ∧ equal E C v w = .ub ∧ equal E C w v = .ok false :=
  ⟨ExQ.env, ExQ.cmp, ExQ.ptr true, ExQ.arr 3 5000, ExQ.sound_ptr _, ExQ.sound_arr _ _ (by decide) rfl,
    ⟨_, _, _, .inPlace (.ptr ⟨false, false⟩ (.base ⟨7, .other, 1, ExV.all⟩ ⟨true, false⟩)) rfl (by simp) (by decide)⟩,
    ⟨_, _, _, .array 3 ExQ.ch rfl⟩, by decide +kernel, by decide +kernel⟩

/-- C40 is false: for arrays the exception of an element's `==`, and the exception that says there is no `==`, end the program. -/
theorem C40_array_terminate_false :
    (∃ (E : Env) (C : Cmp) (v w : Vnt) (n : Nat) (e : CType) (a a' : Addr), Sound E v ∧ Sound E w ∧ Stands v (.arr n e) a ∧
      Stands w (.arr n e) a' ∧ Comparable e ∧ Compared E C e e.sizeOf n a a' (.throw .user) ∧ equal E C v w = .terminate) ∧
    (∃ (E : Env) (C : Cmp) (v w : Vnt) (n : Nat) (e : CType) (a a' : Addr), Sound E v ∧ Sound E w ∧ Stands v (.arr n e) a ∧
      Stands w (.arr n e) a' ∧ ¬Comparable e ∧ equal E C v w = .terminate) := by
  let E : Env := { ExQ.env with load := fun a => if a = 2000 then 6000 else 5000 }
  have snd : ∀ {b : Base} {s x : Addr}, E.load s = x → s ≠ 0 → x ≠ 0 →
      Sound E ⟨some ⟨false, .arr 2 (.base b ⟨false, false⟩)⟩, s, x⟩ ∧
      Stands ⟨some ⟨false, .arr 2 (.base b ⟨false, false⟩)⟩, s, x⟩ (.arr 2 (.base b ⟨false, false⟩)) x := by
    intro b s x hs hs' h
    have st : Stands ⟨some ⟨false, .arr 2 (.base b ⟨false, false⟩)⟩, s, x⟩ (.arr 2 (.base b ⟨false, false⟩)) x :=
      .array 2 (.base b ⟨false, false⟩) rfl
    refine ⟨⟨hs', hs, fun t y hy => ?_, fun b q y hy => ?_⟩, st⟩
    · rw [(hy.unique st).2]; exact h
    · obtain ⟨e, _⟩ := hy.unique st; cases e
  refine ⟨⟨E, { ExQ.cmp with eq := fun _ a _ => if a = 5001 then none else some true }, ExQ.arr 2 5000, ⟨some ⟨false, .arr 2 ExQ.ch⟩, 2000, 6000⟩,
    2, ExQ.ch, 5000, 6000, (snd rfl (by decide) (by decide)).1, (snd rfl (by decide) (by decide)).1, (snd rfl (by decide) (by decide)).2,
    (snd rfl (by decide) (by decide)).2, ?_, .throws 1 (by decide) ?_ (by decide +kernel), by decide +kernel⟩,
    ⟨E, ExQ.cmp, ⟨some ⟨false, .arr 2 (.base ⟨7, .other, 1, { ExV.all with eq := false }⟩ ⟨false, false⟩)⟩, 1000, 5000⟩,
    ⟨some ⟨false, .arr 2 (.base ⟨7, .other, 1, { ExV.all with eq := false }⟩ ⟨false, false⟩)⟩, 1000, 5000⟩, 2, _, 5000, 5000, (snd rfl (by decide) (by decide)).1, (snd rfl (by decide) (by decide)).1, (snd rfl (by decide) (by decide)).2,
    (snd rfl (by decide) (by decide)).2, ?_, by decide +kernel⟩⟩
  · rintro b q h; cases h; rfl
  · intro i hi; cases (show i = 0 by omega); decide +kernel
  · intro h
    cases h _ _ rfl

open ExQ in
/-- the hypotheses of the theorems above are met: three different arrays of the same type -/
example : SameTop (.arr 2 ch) (.arr 2 ch) ∧ Flat (.arr 2 ch) 2 ch ∧ Comparable ch ∧
    equal { env with load := fun _ => 5000 } cmp (arr 2 5000) (arr 2 6000) = .ok true ∧
    equal env cmp (arr 2 5000) (arr 2 5006) = .ok false := by
  refine ⟨.arr _ (.base _ _ _), .arr 2 (.base _ _), ?_, by decide +kernel, by decide +kernel⟩
  rintro b q h; cases h; rfl

/-! ### C41 -/

theorem bytes_append (C : Cmp) : ∀ (m n a : Nat), bytes C a (m + n) = bytes C a m ++ bytes C (a + m) n := by
  intro m
  induction m with
  | zero => intro n a; simp [bytes]
  | succ m ih =>
    intro n a
    rw [show m + 1 + n = (m + n) + 1 by omega]
    simp only [bytes, List.cons_append]
    rw [ih, show a + 1 + m = a + (m + 1) by omega]

theorem bytes_mul (C : Cmp) (s : Nat) (n a b : Nat) (h : ∀ i, i < n → bytes C (a + i * s) s = bytes C (b + i * s) s) :
    bytes C a (n * s) = bytes C b (n * s) := by
  induction n with
  | zero => simp [bytes]
  | succ n ih =>
    rw [Nat.succ_mul, bytes_append, bytes_append, ih (fun i hi => h i (by omega)), h n (by omega)]

/-- C41, what holds: variants of the same size, both arrays or none, have equal hashes if they are equal and objects of that type
    that are equal have the same bytes. Missing: types with padding, several representations of a value or indirection
    (`C41_representation_false`), arrays of different length (`C41_length_false`). -/
theorem C41_partial {E : Env} (C : Cmp) (H : List Nat → Nat) {v w : Vnt} (sv : Sound E v) (sw : Sound E w) {u u' : CType} {a a' : Addr}
    (st : Stands v u a) (st' : Stands w u' a') (hu : Shallow u) (hu' : Shallow u') (ha : u.isArray = u'.isArray)
    (hsz : u.sizeOf = u'.sizeOf) (n : Nat) (e : CType) (hn : Flat u n e)
    (hb : ∀ x y, says E C e x y = some true → ∀ i, i < e.sizeOf → C.byte (x + i) = C.byte (y + i))
    (h : equal E C v w = .ok true) : hash C H v = hash C H w := by
  obtain ⟨rfl, rfl⟩ := hn.eqs
  rw [equal_true sv sw st st' hu hu' ha] at h
  obtain ⟨_, _, _, h⟩ := h
  have bs : ∀ (n x y : Nat), (∀ i, i < n → C.byte (x + i) = C.byte (y + i)) → bytes C x n = bytes C y n := by
    intro n
    induction n with
    | zero => intros; rfl
    | succ n ih =>
      intro x y h
      simp only [bytes]
      have h0 := h 0 (by omega)
      simp only [Nat.add_zero] at h0
      rw [h0, ih (x + 1) (y + 1) fun i hi => by
        rw [show x + 1 + i = x + (i + 1) by omega, show y + 1 + i = y + (i + 1) by omega]; exact h (i + 1) (by omega)]
  have key : bytes C a u.sizeOf = bytes C a' u'.sizeOf := by
    rw [← hsz]
    rcases h with rfl | h
    · rfl
    · rw [sizeOf_flat]
      exact bytes_mul C _ _ _ _ fun i hi => bs _ _ _ (hb _ _ (h i hi))
  obtain ⟨g, eg, hg⟩ := st.held
  obtain ⟨g', eg', hg'⟩ := st'.held
  unfold Val.hash
  rw [eg, eg']
  simp only
  rw [object_right eg st, object_right eg' st', ← hg, ← hg', key]

/-- C41: empty variants have equal hashes. -/
theorem C41_empty (C : Cmp) (H : List Nat → Nat) (v w : Vnt) (h : v.held = none) (h' : w.held = none) : hash C H v = hash C H w := by
  simp [Val.hash, h, h']

/-- C41: a copy of the bytes elsewhere has the same hash, whatever `==` says. -/
theorem C41_bytes (C : Cmp) (H : List Nat → Nat) {v w : Vnt} {u : CType} {a a' : Addr}
    (st : Stands v u a) (st' : Stands w u a') (hb : ∀ i, i < u.sizeOf → C.byte (a + i) = C.byte (a' + i)) : hash C H v = hash C H w := by
  have bs : ∀ (n x y : Nat), (∀ i, i < n → C.byte (x + i) = C.byte (y + i)) → bytes C x n = bytes C y n := by
    intro n
    induction n with
    | zero => intros; rfl
    | succ n ih =>
      intro x y h
      simp only [bytes]
      have h0 := h 0 (by omega)
      simp only [Nat.add_zero] at h0
      rw [h0, ih (x + 1) (y + 1) fun i hi => by
        rw [show x + 1 + i = x + (i + 1) by omega, show y + 1 + i = y + (i + 1) by omega]; exact h (i + 1) (by omega)]
  obtain ⟨g, eg, hg⟩ := st.held
  obtain ⟨g', eg', hg'⟩ := st'.held
  unfold Val.hash
  rw [eg, eg']
  simp only
  rw [object_right eg st, object_right eg' st', ← hg, ← hg', bs _ _ _ hb]

namespace ExQ

/-- `std::ref(b)` for two objects of class `B` -/
def r1 : Vnt := ⟨some ⟨true, ExV.cls ExV.B⟩, 1000, 5000⟩
def r2 : Vnt := ⟨some ⟨true, ExV.cls ExV.B⟩, 2000, 6000⟩

theorem s1 : Stands r1 (ExV.cls ExV.B) 5000 := .ref _ rfl
theorem s2 : Stands r2 (ExV.cls ExV.B) 6000 := .ref _ rfl

theorem sound1 : Sound ExV.env r1 := by
  refine ⟨by decide, by decide, fun t a h => ?_, fun b q a h => ?_⟩
  · rw [(h.unique s1).2]; decide
  · obtain ⟨e, _⟩ := h.unique s1; cases e; decide

theorem sound2 : Sound ExV.env r2 := by
  refine ⟨by decide, by decide, fun t a h => ?_, fun b q a h => ?_⟩
  · rw [(h.unique s2).2]; decide
  · obtain ⟨e, _⟩ := h.unique s2; cases e; decide

end ExQ

open ExQ in
/-- the hypotheses of `C40_object_partial` are met by two objects whose `==` throws -/
example : SameTop (ExV.cls ExV.B) (ExV.cls ExV.B) ∧ (∀ n t, ExV.cls ExV.B ≠ .arr n t) ∧ Comparable (ExV.cls ExV.B) ∧
    equal ExV.env { cmp with eq := fun _ _ _ => none } r1 r2 = .throw .user :=
  ⟨.base _ _ _, nofun, by rintro b q h; cases h; rfl, by decide +kernel⟩

/-- C41 is false when equal objects can have different bytes (`0.0` and `-0.0`, strings, padding), for every hash function without
    collisions, even if `==` is an equivalence relation. -/
theorem C41_representation_false (H : List Nat → Nat) (inj : ∀ l l', H l = H l' → l = l') :
    ∃ (E : Env) (C : Cmp) (v w : Vnt) (b : Base) (q : CV) (a a' : Addr), Sound E v ∧ Sound E w ∧ Stands v (.base b q) a ∧ Stands w (.base b q) a' ∧
      (∀ x y z, C.eq b x x = some true ∧ (C.eq b x y = some true → C.eq b y x = some true) ∧
        (C.eq b x y = some true → C.eq b y z = some true → C.eq b x z = some true)) ∧
      equal E C v w = .ok true ∧ hash C H v ≠ hash C H w := by
  refine ⟨ExV.env, { ExQ.cmp with eq := fun _ _ _ => some true }, ExQ.r1, ExQ.r2, ExV.B, _, _, _, ExQ.sound1, ExQ.sound2, ExQ.s1, ExQ.s2,
    by simp, by decide +kernel, fun h => ?_⟩
  have := inj _ _ h
  revert this
  decide +kernel

/-- C41 is false for arrays of different length: `char[2]` compares equal to a longer array with the same beginning. -/
theorem C41_length_false (H : List Nat → Nat) (inj : ∀ l l', H l = H l' → l = l') :
    ∃ (E : Env) (C : Cmp) (v w : Vnt) (n m : Nat) (e : CType) (a a' : Addr), Sound E v ∧ Sound E w ∧
      Stands v (.arr n e) a ∧ Stands w (.arr m e) a' ∧ equal E C v w = .ok true ∧ hash C H v ≠ hash C H w := by
  refine ⟨ExQ.env, ExQ.cmp, ExQ.arr 2 5000, ExQ.arr 3 5000, 2, 3, ExQ.ch, _, _, ExQ.sound_arr _ _ (by decide) rfl,
    ExQ.sound_arr _ _ (by decide) rfl, .array 2 ExQ.ch rfl, .array 3 ExQ.ch rfl, by decide +kernel, fun h => ?_⟩
  have := inj _ _ h
  revert this
  decide +kernel

open ExQ in
/-- the hypotheses of `C41_partial` are met by two different objects -/
example : (∀ x y, says ExV.env { cmp with byte := fun _ => 0 } (ExV.cls ExV.B) x y = some true →
      ∀ i, i < (ExV.cls ExV.B).sizeOf → ({ cmp with byte := fun _ => 0 } : Cmp).byte (x + i) = ({ cmp with byte := fun _ => 0 } : Cmp).byte (y + i)) ∧
    equal ExV.env { cmp with byte := fun _ => 0 } r1 r2 = .ok true :=
  ⟨fun _ _ _ _ _ => rfl, by decide +kernel⟩

/-! ### C60 -/

/-- C60: equal without conversion: nothing is converted. Exceptions of the comparison go through. -/
theorem C60_direct (E : Env) (C : Cmp) (v : Vnt) (t : CType) (x : Addr) (R : Ret Bool) (hR : R ≠ .ok false)
    (h : equal E C v ⟨some ⟨true, addConst t⟩, 0, x⟩ = R) : eq E C v t x = (R, []) := by
  unfold eq
  rw [h]
  cases R with
  | ok b => cases b <;> simp_all
  | throw e => rfl
  | terminate => rfl
  | ub => rfl
  | diverge => rfl

/-- C60: an empty variant is equal to no value. -/
theorem C60_empty (E : Env) (C : Cmp) (v : Vnt) (t : CType) (x : Addr) (h : v.held = none) : eq E C v t x = (.ok false, []) := by
  simp [eq, equal, h]

theorem convertCompare_turn {E : Env} {C : Cmp} {S T : CType} {a x : Addr} {b : Buf} (hT : T.isArray = false) :
    Turn E C S T a x (convertCompare E C S T a x b).1 := by
  unfold convertCompare
  cases hc : E.conv S.fullDecay T.fullDecay with
  | none => exact .absent hc
  | some c =>
    simp only [hT, Bool.and_false, Bool.false_eq_true, if_false]
    have he : (hasEq T = true ↔ Comparable T) := by
      have := hasEq_iff T
      rwa [show elem T = T by cases T <;> first | rfl | cases hT] at this
    cases hk : c.kind <;> cases hr : c.call a with
    | throws =>
      simp only [runConverter]
      first
        | exact .failed c hc (.swallowed (.inl hr) hk)
        | exact .threw c hc (.threw (.inl hr) hk)
    | returns f cc =>
      cases cc with
      | true =>
        simp only [runConverter]
        first
          | exact .failed c hc (.swallowed (.inr ⟨f, hr⟩) hk)
          | exact .threw c hc (.threw (.inr ⟨f, hr⟩) hk)
      | false =>
        have fin : (c.kind = .functorOk → f = true) → Turn E C S T a x (if (!hasEq T) = true then .throw .runtimeError
            else (lift (C.eqTmp T.fullDecay x c.fn a)).bind fun r => .ok (some r)) := by
          intro hf
          have hcv : Converts c a (.ok (.converted c.fn a)) := .done f hr hf
          by_cases hh : hasEq T = true
          · simp only [hh, Bool.not_true, Bool.false_eq_true, if_false]
            cases ht : C.eqTmp T.fullDecay x c.fn a with
            | none => exact .comparisonThrew c hc hcv (he.1 hh) ht
            | some r => exact .compared c r hc hcv (he.1 hh) ht
          · simp only [hh, Bool.not_false, if_true]
            exact .incomparable c hc hcv fun h => hh (he.2 h)
        cases f <;> simp only [runConverter] <;>
          first
            | exact fin (fun _ => rfl)
            | exact fin (by rw [hk]; nofun)
            | exact .failed c hc (.declined hr hk)

theorem Turn.unique {E : Env} {C : Cmp} {S T : CType} {a x : Addr} {R R' : Ret (Option Bool)} (h : Turn E C S T a x R) (h' : Turn E C S T a x R') :
    R = R' := by
  have cv : ∀ {c : Conv} {M M' : Ret Made}, Converts c a M → Converts c a M' → M = M' := by
    intro c M M' m m'
    cases m <;> cases m' <;> grind
  cases h <;> cases h' <;> grind

/-- C60: not equal without conversion: first the variant's value is converted to the other type and compared; only if there is no
    converter, or it fails, the other value is converted to the variant's type; if that is impossible too, the answer is false.
    Exceptions of converters with a flag and of comparisons go through. Missing (`_partial`): array types (`C60_array_false`). -/
theorem C60_decision_partial {E : Env} (C : Cmp) {v : Vnt} {u : CType} {a : Addr} (st : Stands v u a) (hu : u.isArray = false)
    (t : CType) (ht : t.isArray = false) (x : Addr) (h : equal E C v ⟨some ⟨true, addConst t⟩, 0, x⟩ = .ok false) :
    ∃ R, Turn E C u t a x R ∧ (∀ r, R = .ok (some r) → (eq E C v t x).1 = .ok r) ∧ (∀ e, R = .throw e → (eq E C v t x).1 = .throw e) ∧
      (R = .ok none → ∃ R', Turn E C t u x a R' ∧ (∀ r, R' = .ok (some r) → (eq E C v t x).1 = .ok r) ∧
        (∀ e, R' = .throw e → (eq E C v t x).1 = .throw e) ∧ (R' = .ok none → (eq E C v t x).1 = .ok false)) := by
  obtain ⟨g, eg, rfl⟩ := st.held
  have hb := object_right eg st
  have hga : g.t.isArray = false := by
    rw [← u_isArray]; exact hu
  simp only [hga, Bool.false_eq_true, if_false] at hb
  refine ⟨_, convertCompare_turn (b := .stack) ht, ?_⟩
  unfold eq
  rw [h, eg]
  simp only [hga, Bool.false_eq_true, if_false, hb]
  refine ⟨fun r e => ?_, fun r e => ?_, fun e => ⟨_, convertCompare_turn (b := .heap) hu, ?_⟩⟩
  · generalize convertCompare E C g.u t a x .stack = p at *
    obtain ⟨p1, p2⟩ := p
    simp only at e; subst e; rfl
  · generalize convertCompare E C g.u t a x .stack = p at *
    obtain ⟨p1, p2⟩ := p
    simp only at e; subst e; rfl
  · generalize convertCompare E C g.u t a x .stack = p at *
    obtain ⟨p1, p2⟩ := p
    simp only at e; subst e
    simp only
    by_cases hc : (E.conv t.fullDecay g.u.fullDecay).isSome = true
    · rw [if_pos hc]
      generalize convertCompare E C t g.u x a .heap = p at *
      obtain ⟨p1, p2'⟩ := p
      simp only
      refine ⟨fun r e => ?_, fun r e => ?_, fun e => ?_⟩ <;> subst e <;> rfl
    · rw [if_neg hc]
      have hn : E.conv t.fullDecay g.u.fullDecay = none := by
        cases hq : E.conv t.fullDecay g.u.fullDecay with
        | none => rfl
        | some => rw [hq] at hc; simp at hc
      have : (convertCompare E C t g.u x a .heap).1 = .ok none := by simp [convertCompare, hn]
      rw [this]
      exact ⟨nofun, nofun, fun _ => rfl⟩

/-- C60: what each direction makes of the converters is determined. -/
theorem C60_determined {E : Env} {C : Cmp} {S T : CType} {a x : Addr} {R R' : Ret (Option Bool)} (h : Turn E C S T a x R) (h' : Turn E C S T a x R') :
    R = R' := Turn.unique h h'

theorem convertCompare_trace {E : Env} {C : Cmp} {S T : CType} {a x : Addr} {b : Buf} (hT : T.isArray = false) (hh : Honest E S T a) :
    (convertCompare E C S T a x b).2 = [] ∨ (convertCompare E C S T a x b).2 = [.construct b, .destroy b] := by
  unfold convertCompare
  cases hc : E.conv S.fullDecay T.fullDecay with
  | none => exact .inl rfl
  | some c =>
    simp only [hT, Bool.and_false, Bool.false_eq_true, if_false]
    have := hh c hc
    cases hk : c.kind <;> cases hr : c.call a with
    | throws => left; rfl
    | returns f cc =>
      cases cc <;> cases f <;> simp_all [runConverter]

/-- C60: the temporaries: each value a converter makes is destroyed, exactly once, and the heap buffer is freed, also when the
    comparison throws. Missing (`_partial`): converters that say "no" after returning a value (`C60_leak_false`), array types
    (`C60_array_false`). -/
theorem C60_temporaries_partial {E : Env} (C : Cmp) {v : Vnt} {u : CType} {a : Addr} (st : Stands v u a) (hu : u.isArray = false)
    (t : CType) (ht : t.isArray = false) (x : Addr) (h1 : Honest E u t a) (h2 : Honest E t u x) :
    Clean false false false (eq E C v t x).2 := by
  obtain ⟨g, eg, rfl⟩ := st.held
  have hb := object_right eg st
  have hga : g.t.isArray = false := by
    rw [← u_isArray]; exact hu
  simp only [hga, Bool.false_eq_true, if_false] at hb
  have t1 := convertCompare_trace (C := C) (x := x) (b := .stack) ht h1
  have t2 := convertCompare_trace (C := C) (x := a) (b := .heap) hu h2
  have u2 := convertCompare_turn (E := E) (C := C) (S := t) (a := x) (x := a) (b := .heap) hu
  unfold eq
  rw [eg]
  simp only [hga, Bool.false_eq_true, if_false, hb]
  have c1 : ∀ l, l = [] ∨ l = [.construct .stack, .destroy .stack] → Clean false false false l := by
    rintro l (rfl | rfl)
    · exact .done
    · exact .stack (.unstack .done)
  have c2 : ∀ l l', (l = [] ∨ l = [.construct .stack, .destroy .stack]) → (l' = [] ∨ l' = [.construct .heap, .destroy .heap]) →
      Clean false false false (l ++ .alloc :: l' ++ [.free]) := by
    rintro l l' (rfl | rfl) (rfl | rfl)
    · exact .alloc (.free .done)
    · exact .alloc (.heap (.unheap (.free .done)))
    · exact .stack (.unstack (.alloc (.free .done)))
    · exact .stack (.unstack (.alloc (.heap (.unheap (.free .done)))))
  generalize convertCompare E C g.u t a x .stack = p at *
  generalize convertCompare E C t g.u x a .heap = p' at *
  obtain ⟨p1, p2⟩ := p
  obtain ⟨q1, q2⟩ := p'
  simp only at *
  split
  · exact .done
  · split
    · rename_i e; cases e; exact c1 _ t1
    · rename_i l e
      cases e
      split
      · split <;> rename_i e <;> cases e
        · exact c2 _ _ t1 t2
        · exact c2 _ _ t1 t2
        · exact c2 _ _ t1 t2
        all_goals cases u2
      · exact c1 _ t1
    all_goals (rename_i e; cases e; exact c1 _ t1)
  all_goals exact .done

namespace ExQ

/-- `int` 5 in place -/
def vi : Vnt := ⟨some ⟨false, Ex.int⟩, 1000, 5000⟩
/-- converters from `int` to `N` by `k`, run with the result `u`, and back to `int` -/
def cenv (k : ConvKind) (u : UserCall) : Env := { ExV.env with
  conv := fun s t => if s = Ex.int ∧ t = ExV.cls ExV.N then some ⟨1, k, fun _ => u⟩
    else if s = ExV.cls ExV.N ∧ t = Ex.int then some ⟨2, .functor, fun _ => .returns false false⟩ else none }

theorem si : Stands vi Ex.int 1000 := .inPlace Ex.int rfl (by simp [Ex.int]) (by decide)

end ExQ

open ExQ in
/-- Both directions in action: the first converter answers; it fails and the second answers, on the heap. -/
example : (cenv .functor (.returns false false)).conv Ex.int (ExV.cls ExV.N) ≠ none ∧
    eq (cenv .functor (.returns false false)) cmp vi (ExV.cls ExV.N) 7000 = (.ok true, [.construct .stack, .destroy .stack]) ∧
    eq (cenv .functor .throws) cmp vi (ExV.cls ExV.N) 7000 = (.ok true, [.alloc, .construct .heap, .destroy .heap, .free]) ∧
    Honest (cenv .functor .throws) Ex.int (ExV.cls ExV.N) 1000 := by
  refine ⟨by decide +kernel, by decide +kernel, by decide +kernel, fun c hc _ => ?_⟩
  have : c = ⟨1, .functor, fun _ => .throws⟩ := by
    have : (cenv .functor .throws).conv Ex.int.fullDecay (ExV.cls ExV.N).fullDecay = some ⟨1, .functor, fun _ => .throws⟩ := by
      rfl
    rw [this] at hc; exact (Option.some.inj hc).symm
  subst this; nofun

/-- C60 is false: a converter that returns a value and says it is not valid: the value is never destroyed. -/
theorem C60_leak_false : ∃ (E : Env) (C : Cmp) (v : Vnt) (u t : CType) (a x : Addr), Stands v u a ∧ u.isArray = false ∧ t.isArray = false ∧
    (eq E C v t x).1 = .ok true ∧ ¬Clean false false false (eq E C v t x).2 := by
  refine ⟨ExQ.cenv .functorOk (.returns false false), ExQ.cmp, ExQ.vi, Ex.int, ExV.cls ExV.N, 1000, 7000, ExQ.si, rfl, rfl, by decide +kernel, ?_⟩
  have : (eq (ExQ.cenv .functorOk (.returns false false)) ExQ.cmp ExQ.vi (ExV.cls ExV.N) 7000).2
      = [.construct .stack, .alloc, .construct .heap, .destroy .heap, .free] := by decide +kernel
  rw [this]
  intro h
  cases h with | stack h => cases h with | alloc h => cases h with | heap h => cases h with | unheap h => cases h with | free h => cases h

/-- C60 is false: comparing with an array for which there is a converter (to the pointer the array decays to) writes the pointer into
    a buffer for the elements, and reads it as the elements. -/
theorem C60_array_false : ∃ (E : Env) (C : Cmp) (v : Vnt) (u t : CType) (a x : Addr), Stands v u a ∧ u.isArray = false ∧
    (∃ n e, t = .arr n e ∧ e.isArray = false) ∧ (eq E C v t x).1 = .ub := by
  refine ⟨{ ExV.env with conv := fun _ _ => some ⟨1, .functor, fun _ => .returns false false⟩ }, ExQ.cmp, ExQ.vi, Ex.int, .arr 2 ExQ.ch, 1000, 7000,
    ExQ.si, rfl, ⟨2, _, rfl, rfl⟩, by decide +kernel⟩

end Rtti.Props
