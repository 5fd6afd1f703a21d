import Verif.Props.Equal
/-
C40, C60: every outcome of comparing a variant with a variant and with a value.
-/
set_option autoImplicit false
namespace Rtti.Props
open Rtti Spec Val

private theorem isArray_iff (t : CType) : t.isArray = true ↔ ∃ n e, t = .arr n e := by
  cases t <;> simp [CType.isArray]

private theorem isArray_eq {u u' : CType} : u.isArray = u'.isArray ↔ ((∃ m t, u = .arr m t) ↔ (∃ m t, u' = .arr m t)) := by
  rw [← isArray_iff, ← isArray_iff, Bool.eq_iff_iff]

/-- a pointer does not bind to a reference to an array -/
private theorem ptr_array_unlike {q : CV} {p : CType} {n : Nat} {e : CType} (h : Shallow (.ptr q p)) : ¬Alike (.arr n e) (.ptr q p) := by
  rintro ⟨hf, _⟩
  have s1 : Shallow (⟨.lref, addConst (.ptr q p)⟩ : RType).t := by unfold Shallow; rw [addConst_arity]; exact h
  have s2 : Shallow (⟨.lref, addConst (.arr n e)⟩ : RType).t := by unfold Shallow; rw [addConst_arity]; simp [CType.pointerArity]
  rcases compat_cases _ _ s1 s2 with ⟨_, c, _⟩ | ⟨c, _⟩
  · have := c.arity
    simp [effArity, addConst, CType.pointerArity, CType.isArray] at this
  · exact c hf

/-- the elements of an array are not pointers to what the array holds -/
private theorem elem_size : ∀ (t : CType), sizeOf (elem t).removeAllCv ≤ sizeOf t.removeAllCv := by
  intro t
  induction t with
  | base => exact Nat.le_refl _
  | ptr => exact Nat.le_refl _
  | arr n t ih => simp only [elem, CType.removeAllCv, CType.arr.sizeOf_spec]; omega

private theorem ptr_array_elem {q : CV} {p : CType} {n : Nat} {e : CType} (h : SameDecay (.ptr q p) (.arr n e)) :
    (elem (.ptr q p)).removeAllCv ≠ (elem (.arr n e)).removeAllCv := by
  have hd := (fullDecay_iff _ _).2 h
  simp only [CType.fullDecay, CType.decay, CType.removeAllCv, CType.ptr.injEq, true_and] at hd
  intro he
  have := elem_size e
  simp only [elem, CType.removeAllCv] at he
  rw [← he, hd] at this
  simp at this
  omega

/-- the empty variant, or one that stands for something -/
private theorem stands_or (v : Vnt) : v.held = none ∨ ∃ u a, Stands v u a ∧ v.held ≠ none := by
  cases h : v.held with
  | none => exact .inl rfl
  | some g =>
    obtain ⟨a, st, _⟩ := stands_of h
    exact .inr ⟨_, a, st, by simp⟩

private theorem held_ne {v : Vnt} {u : CType} {a : Addr} (st : Stands v u a) : v.held ≠ none := by
  obtain ⟨h, e, _⟩ := st.held
  rw [e]; simp

private theorem mixed {E : Env} {C : Cmp} {v w : Vnt} {q : CV} {p : CType} {n : Nat} {e : CType} {a a' : Addr}
    (na : a ≠ 0) (na' : a' ≠ 0) (st : Stands v (.ptr q p) a) (st' : Stands w (.arr n e) a') (hs : Shallow (.ptr q p))
    (hl : Alike (.ptr q p) (.arr n e)) : equal E C v w = if a = a' then .ok true else .ub := by
  rcases equal_some (E := E) (C := C) st st' hs (by simp [Shallow, CType.pointerArity]) with ⟨_, hd, t, rt, e1, h0, h1, h2, h3, h4⟩ | ⟨h, _⟩
  · rw [e1]
    unfold Val.compareEq
    rw [hasEq_congr h2, show hasEq (.ptr q p) = true from rfl]
    simp only [Bool.not_true, Bool.false_eq_true, if_false]
    by_cases haa : a = a'
    · rw [if_pos haa, if_pos haa]; rfl
    · rw [if_neg haa, if_neg haa, if_neg (by simp [na, na']), if_pos (by rw [h2, h4]; exact ptr_array_elem hd)]; rfl
  · exact absurd hl h

private theorem equals_of {E : Env} {C : Cmp} {v w : Vnt} (rv : Regular v) (rw' : Regular w) : Equals E C v w (equal E C v w) := by
  rcases stands_or v with hv | ⟨u, a, st, hv⟩ <;> rcases stands_or w with hw | ⟨u', a', st', hw⟩
  · rw [(C40_empty E C v w hv).1 hw]; exact .empty hv hw
  · rw [((C40_empty E C v w hv).2 hw).1]; exact .oneEmpty (by simp [hv, hw])
  · rw [((C40_empty E C w v hw).2 hv).2]; exact .oneEmpty (by simp [hv, hw])
  · have hu := rv.shallow _ _ st
    have hu' := rw'.shallow _ _ st'
    by_cases hl : Alike u u'
    · by_cases ha : u.isArray = u'.isArray
      · rcases equal_compared' (E := E) (C := C) (rv.object _ _ st) (rw'.object _ _ st') (fun b q h => rv.nofunc b q a (h ▸ st))
          (fun b q h => rw'.nofunc b q a' (h ▸ st')) st st' hu hu' hl.1 hl.2 ha with ⟨k1, k2⟩ | ⟨k1, ⟨k2, k3⟩ | ⟨k2, R, k3, k4⟩⟩
        · exact .incomparable u u' a a' _ _ _ st st' hl (flat_elem u) k1 k2
        · rw [k3]; subst k2; exact .sameObject u u' a _ _ st st' hl (flat_elem u) k1
        · exact .compared u u' a a' _ _ _ _ st st' hl (isArray_eq.1 ha) (flat_elem u) k1 k2 k3 k4
      · cases u with
        | base b q =>
          cases u' with
          | base => exact absurd rfl ha
          | ptr => exact absurd rfl ha
          | arr n e =>
            rcases hl.2 with ⟨_, _, h, _⟩ | ⟨_, _, _, _, _, h⟩
            · cases h with | func _ _ h => exact absurd h (rv.nofunc _ _ _ st)
            · cases h
        | ptr q p =>
          cases u' with
          | base => exact absurd rfl ha
          | ptr => exact absurd rfl ha
          | arr n e =>
            rw [mixed (rv.object _ _ st) (rw'.object _ _ st') st st' hu hl]
            split
            · next h => subst h; exact .sameObject _ _ a _ _ st st' hl (flat_elem _) (by intro b q h; cases h)
            · next h => exact .misread q p n e a a' st st' hl h
        | arr n e =>
          cases u' with
          | base b q =>
            rcases hl.2 with ⟨_, _, _, h, _⟩ | ⟨_, _, _, _, h, _⟩
            · cases h with | func _ _ h => exact absurd h (rw'.nofunc _ _ _ st')
            · cases h
          | ptr q p => exact absurd hl (ptr_array_unlike hu')
          | arr => exact absurd rfl ha
    · rcases equal_some (E := E) (C := C) st st' hu hu' with ⟨h1, h2, _⟩ | ⟨_, h⟩
      · exact absurd ⟨h1, h2⟩ hl
      · rw [h]; exact .unlike u u' a a' st st' hl

private theorem _root_.Rtti.Val.Equals.unique {E : Env} {C : Cmp} {v w : Vnt} {R R' : Ret Bool} (h : Equals E C v w R) (h' : Equals E C v w R') : R = R' := by
  have ex : ∀ {u u' : CType} {a a' : Addr}, Stands v u a → Stands w u' a' → ¬(v.held = none ↔ w.held ≠ none) := fun s s' k => by
    have h1 := held_ne s; have h2 := held_ne s'
    simp [h1, h2] at k
  cases h with
  | empty h1 h2 =>
    cases h' with
    | empty => rfl
    | oneEmpty k => simp [h1, h2] at k
    | unlike _ _ _ _ s => exact absurd h1 (held_ne s)
    | incomparable _ _ _ _ _ _ _ s => exact absurd h1 (held_ne s)
    | sameObject _ _ _ _ _ s => exact absurd h1 (held_ne s)
    | compared _ _ _ _ _ _ _ _ s => exact absurd h1 (held_ne s)
    | misread _ _ _ _ _ _ s => exact absurd h1 (held_ne s)
  | oneEmpty k =>
    cases h' with
    | empty h1 h2 => simp [h1, h2] at k
    | oneEmpty _ => rfl
    | unlike _ _ _ _ s s' => rfl
    | incomparable _ _ _ _ _ _ _ s s' => exact absurd k (ex s s')
    | sameObject _ _ _ _ _ s s' => exact absurd k (ex s s')
    | compared _ _ _ _ _ _ _ _ s s' => exact absurd k (ex s s')
    | misread _ _ _ _ _ _ s s' => exact absurd k (ex s s')
  | unlike u u' a a' s s' hl =>
    cases h' with
    | empty h1 h2 => exact absurd h1 (held_ne s)
    | oneEmpty _ => rfl
    | unlike => rfl
    | incomparable _ _ _ _ _ _ _ t t' hl' => obtain ⟨rfl, rfl⟩ := s.unique t; obtain ⟨rfl, rfl⟩ := s'.unique t'; exact absurd hl' hl
    | sameObject _ _ _ _ _ t t' hl' => obtain ⟨rfl, rfl⟩ := s.unique t; obtain ⟨rfl, rfl⟩ := s'.unique t'; exact absurd hl' hl
    | compared _ _ _ _ _ _ _ _ t t' hl' => obtain ⟨rfl, rfl⟩ := s.unique t; obtain ⟨rfl, rfl⟩ := s'.unique t'; exact absurd hl' hl
    | misread _ _ _ _ _ _ t t' hl' => obtain ⟨rfl, rfl⟩ := s.unique t; obtain ⟨rfl, rfl⟩ := s'.unique t'; exact absurd hl' hl
  | incomparable u u' a a' n e _ s s' hl hn hc hL =>
    cases h' with
    | empty h1 h2 => exact absurd h1 (held_ne s)
    | oneEmpty k => exact absurd k (ex s s')
    | unlike _ _ _ _ t t' hl' => obtain ⟨rfl, rfl⟩ := s.unique t; obtain ⟨rfl, rfl⟩ := s'.unique t'; exact absurd hl hl'
    | incomparable _ _ _ _ _ _ _ t _ _ _ _ hL' => obtain ⟨rfl, rfl⟩ := s.unique t; exact hL.unique hL'
    | sameObject _ _ _ _ _ t t' _ hn' hc' =>
      obtain ⟨rfl, rfl⟩ := s.unique t; obtain ⟨rfl, rfl⟩ := hn.eqs; obtain ⟨rfl, rfl⟩ := hn'.eqs; exact absurd hc' hc
    | compared _ _ _ _ _ _ _ _ t t' _ _ hn' hc' =>
      obtain ⟨rfl, rfl⟩ := s.unique t; obtain ⟨rfl, rfl⟩ := hn.eqs; obtain ⟨rfl, rfl⟩ := hn'.eqs; exact absurd hc' hc
    | misread _ _ _ _ _ _ t =>
      obtain ⟨rfl, rfl⟩ := s.unique t; obtain ⟨rfl, rfl⟩ := hn.eqs
      exact absurd (by intro b q h; cases h) hc
  | sameObject u u' a n e s s' hl hn hc =>
    cases h' with
    | empty h1 h2 => exact absurd h1 (held_ne s)
    | oneEmpty k => exact absurd k (ex s s')
    | unlike _ _ _ _ t t' hl' => obtain ⟨rfl, rfl⟩ := s.unique t; obtain ⟨rfl, rfl⟩ := s'.unique t'; exact absurd hl hl'
    | incomparable _ _ _ _ _ _ _ t t' _ hn' hc' =>
      obtain ⟨rfl, rfl⟩ := s.unique t; obtain ⟨rfl, rfl⟩ := hn.eqs; obtain ⟨rfl, rfl⟩ := hn'.eqs; exact absurd hc hc'
    | sameObject => rfl
    | compared _ _ _ _ _ _ _ _ t t' _ _ _ _ hne => obtain ⟨rfl, rfl⟩ := s.unique t; obtain ⟨rfl, rfl⟩ := s'.unique t'; exact absurd rfl hne
    | misread _ _ _ _ _ _ t t' _ hne => obtain ⟨rfl, rfl⟩ := s.unique t; obtain ⟨rfl, rfl⟩ := s'.unique t'; exact absurd rfl hne
  | compared u u' a a' n e R _ s s' hl hi hn hc hne hR hL =>
    cases h' with
    | empty h1 h2 => exact absurd h1 (held_ne s)
    | oneEmpty k => exact absurd k (ex s s')
    | unlike _ _ _ _ t t' hl' => obtain ⟨rfl, rfl⟩ := s.unique t; obtain ⟨rfl, rfl⟩ := s'.unique t'; exact absurd hl hl'
    | incomparable _ _ _ _ _ _ _ t t' _ hn' hc' =>
      obtain ⟨rfl, rfl⟩ := s.unique t; obtain ⟨rfl, rfl⟩ := hn.eqs; obtain ⟨rfl, rfl⟩ := hn'.eqs; exact absurd hc hc'
    | sameObject _ _ _ _ _ t t' => obtain ⟨rfl, rfl⟩ := s.unique t; obtain ⟨rfl, rfl⟩ := s'.unique t'; exact absurd rfl hne
    | compared _ _ _ _ _ _ _ _ t t' _ _ hn' _ _ hR' hL' =>
      obtain ⟨rfl, rfl⟩ := s.unique t; obtain ⟨rfl, rfl⟩ := s'.unique t'
      obtain ⟨rfl, rfl⟩ := hn.eqs; obtain ⟨rfl, rfl⟩ := hn'.eqs
      cases hR.unique hR'
      exact hL.unique hL'
    | misread _ _ _ _ _ _ t t' =>
      obtain ⟨rfl, rfl⟩ := s.unique t; obtain ⟨rfl, rfl⟩ := s'.unique t'
      obtain ⟨_, _, h⟩ := hi.2 ⟨_, _, rfl⟩; cases h
  | misread q p n e a a' s s' hl hne =>
    cases h' with
    | empty h1 h2 => exact absurd h1 (held_ne s)
    | oneEmpty k => exact absurd k (ex s s')
    | unlike _ _ _ _ t t' hl' => obtain ⟨rfl, rfl⟩ := s.unique t; obtain ⟨rfl, rfl⟩ := s'.unique t'; exact absurd hl hl'
    | incomparable _ _ _ _ _ _ _ t t' _ hn' hc' =>
      obtain ⟨rfl, rfl⟩ := s.unique t; obtain ⟨rfl, rfl⟩ := hn'.eqs
      exact absurd (by intro b q h; cases h) hc'
    | sameObject _ _ _ _ _ t t' => obtain ⟨rfl, rfl⟩ := s.unique t; obtain ⟨rfl, rfl⟩ := s'.unique t'; exact absurd rfl hne
    | compared _ _ _ _ _ _ _ _ t t' _ hi =>
      obtain ⟨rfl, rfl⟩ := s.unique t; obtain ⟨rfl, rfl⟩ := s'.unique t'
      obtain ⟨_, _, h⟩ := hi.2 ⟨_, _, rfl⟩; cases h
    | misread => rfl

/-- C40, every outcome of `==` on two variants, of whatever types. -/
theorem C40_exact (E : Env) (C : Cmp) (v w : Vnt) (rv : Regular v) (rw' : Regular w) (R : Ret Bool) :
    equal E C v w = R ↔ Equals E C v w R :=
  ⟨fun h => h ▸ equals_of rv rw', fun h => Equals.unique (equals_of rv rw') h⟩

/-- C40: comparing is undefined exactly when a pointer is compared with an array (in this order) whose elements it may point to. -/
theorem C40_ub_iff (E : Env) (C : Cmp) (v w : Vnt) (rv : Regular v) (rw' : Regular w) :
    equal E C v w = .ub ↔ ∃ q p n e a a', Stands v (.ptr q p) a ∧ Stands w (.arr n e) a' ∧ Alike (.ptr q p) (.arr n e) ∧ a ≠ a' := by
  rw [C40_exact E C v w rv rw']
  constructor
  · intro h
    cases h with
    | incomparable _ _ _ _ _ _ _ _ _ _ _ _ h => cases h
    | compared _ _ _ _ _ _ _ _ _ _ _ _ _ _ _ h k => cases h <;> cases k
    | misread q p n e a a' h1 h2 h3 h4 => exact ⟨q, p, n, e, a, a', h1, h2, h3, h4⟩
  · rintro ⟨q, p, n, e, a, a', h1, h2, h3, h4⟩
    exact .misread q p n e a a' h1 h2 h3 h4

/-- C40: comparing ends the program exactly when the left operand is an array, the right one may be taken for it, and its elements have
    no `==` or theirs throws. -/
theorem C40_terminate_iff (E : Env) (C : Cmp) (v w : Vnt) (rv : Regular v) (rw' : Regular w) :
    equal E C v w = .terminate ↔ ∃ m t u' n e a a', Stands v (.arr m t) a ∧ Stands w u' a' ∧ Alike (.arr m t) u' ∧ Flat (.arr m t) n e ∧
      (¬Comparable e ∨ Comparable e ∧ a ≠ a' ∧ Compared E C e e.sizeOf n a a' (.throw .user)) := by
  rw [C40_exact E C v w rv rw']
  constructor
  · intro h
    cases h with
    | incomparable u u' a a' n e _ h1 h2 h3 h4 h5 h6 => cases h6; exact ⟨_, _, _, _, _, _, _, h1, h2, h3, h4, .inl h5⟩
    | compared u u' a a' n e R _ h1 h2 h3 h4 h5 h6 h7 h8 h9 =>
      cases h9
      have h8' := h8
      cases h8
      exact ⟨_, _, _, _, _, _, _, h1, h2, h3, h5, .inr ⟨h6, h7, h8'⟩⟩
  · rintro ⟨m, t, u', n, e, a, a', h1, h2, h3, h4, h5 | ⟨h5, h6, h7⟩⟩
    · exact .incomparable _ _ _ _ _ _ _ h1 h2 h3 h4 h5 (.array _ _ _)
    · refine .compared _ _ _ _ _ _ _ _ h1 h2 h3 ⟨fun _ => ?_, fun _ => ⟨_, _, rfl⟩⟩ h4 h5 h6 h7 (.array _ _ _)
      cases u' with
      | arr m' t' => exact ⟨_, _, rfl⟩
      | ptr q p => exact absurd h3 (ptr_array_unlike (rw'.shallow _ _ h2))
      | base b q =>
        rcases h3.2 with ⟨_, _, _, h, _⟩ | ⟨_, _, _, _, h, _⟩
        · cases h with | func _ _ h => exact absurd h (rw'.nofunc _ _ _ h2)
        · cases h

theorem _root_.Rtti.Val.Sound.regular {E : Env} {v : Vnt} (s : Sound E v) (h : ∀ t a, Stands v t a → Shallow t) : Regular v := ⟨s.object, s.nofunc, h⟩

namespace ExQ

theorem regular_arr (n a : Nat) (h : a ≠ 0) (h' : env.load 1000 = a) : Regular (arr n a) :=
  (sound_arr n a h h').regular fun t x hx => by
    have st : Stands (arr n a) (.arr n ch) a := .array n ch rfl
    rw [(hx.unique st).1]; simp [Shallow, CType.pointerArity]

theorem regular_ptr (c : Bool) : Regular (ptr c) :=
  (sound_ptr c).regular fun t x hx => by
    have st : Stands (ptr c) (.ptr ⟨false, false⟩ (.base ⟨7, .other, 1, ExV.all⟩ ⟨c, false⟩)) 1000 :=
      .inPlace (.ptr ⟨false, false⟩ (.base ⟨7, .other, 1, ExV.all⟩ ⟨c, false⟩)) rfl (by simp) (by cases c <;> decide)
    rw [(hx.unique st).1]; simp [Shallow, CType.pointerArity]

end ExQ

open ExQ in
example : Regular (ptr true) ∧ Regular (arr 3 5000) ∧ equal env cmp (ptr true) (arr 3 5000) = .ub ∧
    Equals env cmp (arr 3 5000) (ptr true) (.ok false) :=
  ⟨regular_ptr true, regular_arr 3 5000 (by decide) rfl, by decide +kernel,
    (C40_exact _ _ _ _ (regular_arr 3 5000 (by decide) rfl) (regular_ptr true) _).1 (by decide +kernel)⟩

open ExQ in
/-- arrays whose second elements cannot be compared -/
example : ∃ m t u' n e a a', Stands (arr 2 5000) (.arr m t) a ∧ Stands (arr 3 6000) u' a' ∧ Alike (.arr m t) u' ∧ Flat (.arr m t) n e ∧
    (¬Comparable e ∨ Comparable e ∧ a ≠ a' ∧ Compared env { cmp with eq := fun _ a _ => if a = 5001 then none else some true } e e.sizeOf n a a'
      (.throw .user)) := by
  have st : Stands (arr 3 6000) (.arr 3 ch) 6000 := .array 3 ch rfl
  refine (C40_terminate_iff env _ _ _ (regular_arr 2 5000 (by decide) rfl)
    ⟨fun t x hx => ?_, fun b q x hx => ?_, fun t x hx => ?_⟩).1 (by decide +kernel)
  · rw [(hx.unique st).2]; decide
  · cases (hx.unique st).1
  · rw [(hx.unique st).1]; simp [Shallow, CType.pointerArity]

/-! ### C60 -/

private theorem tried_of {E : Env} {C : Cmp} {S T : CType} {a x : Addr} {b : Buf} : Tried E C S T a x (convertCompare E C S T a x b).1 := by
  cases hT : T.isArray with
  | false => exact .value _ (fun n e h => by rw [h] at hT; cases hT) (convertCompare_turn hT)
  | true =>
    obtain ⟨n, e, rfl⟩ := (isArray_iff T).1 hT
    unfold convertCompare
    cases hc : E.conv S.fullDecay (CType.arr n e).fullDecay with
    | none => exact .absent hc
    | some c =>
      simp only [hT, Bool.and_true]
      cases hk : c.kind <;> cases hr : c.call a with
      | throws =>
        simp only [runConverter]
        first
          | exact .failed c hc (.inl hr) hk
          | exact .threw c hc (.inl hr) hk
      | returns f cc =>
        cases cc with
        | true =>
          simp only [runConverter]
          first
            | exact .failed c hc (.inr ⟨f, hr⟩) hk
            | exact .threw c hc (.inr ⟨f, hr⟩) hk
        | false =>
          simp only [runConverter]
          exact .overrun c f n e rfl hc hr

private theorem _root_.Rtti.Val.Tried.unique {E : Env} {C : Cmp} {S T : CType} {a x : Addr} {R R' : Ret (Option Bool)}
    (h : Tried E C S T a x R) (h' : Tried E C S T a x R') : R = R' := by
  have cv : ∀ {c : Conv} {M M' : Ret Made}, Converts c a M → Converts c a M' → M = M' := by
    intro c M M' m m'
    cases m <;> cases m' <;> grind
  have ft : ∀ {c : Conv}, (c.call a = .throws ∨ ∃ f, c.call a = .returns f true) → c.kind = .functor →
      Converts c a (.throw .badVariantConvert) := fun h k => .swallowed h k
  have tt : ∀ {c : Conv}, (c.call a = .throws ∨ ∃ f, c.call a = .returns f true) → c.kind = .functorOk →
      Converts c a (.throw .user) := fun h k => .threw h k
  cases h with
  | value _ ht h =>
    cases h' with
    | value _ _ h' => exact Turn.unique h h'
    | absent k => exact Turn.unique h (.absent k)
    | failed c k1 k2 k3 => exact Turn.unique h (.failed c k1 (ft k2 k3))
    | threw c k1 k2 k3 => exact Turn.unique h (.threw c k1 (tt k2 k3))
    | overrun c f n e k => exact absurd k (ht n e)
  | absent k =>
    cases h' with
    | value _ _ h' => exact Turn.unique (.absent k) h'
    | absent => rfl
    | failed c k1 => rfl
    | threw c k1 => rw [k] at k1; cases k1
    | overrun c f n e _ k1 => rw [k] at k1; cases k1
  | failed c k1 k2 k3 =>
    cases h' with
    | value _ _ h' => exact Turn.unique (.failed c k1 (ft k2 k3)) h'
    | absent k => rfl
    | failed => rfl
    | threw c' k1' k2' k3' => rw [k1] at k1'; cases k1'; rw [k3] at k3'; cases k3'
    | overrun c' f n e _ k1' k2' => rw [k1] at k1'; cases k1'; rw [k2'] at k2; simp at k2
  | threw c k1 k2 k3 =>
    cases h' with
    | value _ _ h' => exact Turn.unique (.threw c k1 (tt k2 k3)) h'
    | absent k => rw [k] at k1; cases k1
    | failed c' k1' k2' k3' => rw [k1] at k1'; cases k1'; rw [k3] at k3'; cases k3'
    | threw => rfl
    | overrun c' f n e _ k1' k2' => rw [k1] at k1'; cases k1'; rw [k2'] at k2; simp at k2
  | overrun c f n e k k1 k2 =>
    cases h' with
    | value _ ht h => exact absurd k (ht n e)
    | absent k => rw [k] at k1; cases k1
    | failed c' k1' k2' k3' => rw [k1] at k1'; cases k1'; rw [k2] at k2'; simp at k2'
    | threw c' k1' k2' k3' => rw [k1] at k1'; cases k1'; rw [k2] at k2'; simp at k2'
    | overrun => rfl

/-- the value as a variant: a reference to it -/
def refTo (t : CType) (x : Addr) : Vnt := ⟨some ⟨true, addConst t⟩, 0, x⟩

private theorem place_access {v : Vnt} {u : CType} {a : Addr} (st : Stands v u a) : Place v v.access := by
  cases ha : u.isArray with
  | false =>
    rw [(st.access).1 ha]
    exact .object u a st fun n e h => by rw [h] at ha; cases ha
  | true =>
    rw [((st.access).2 ha).1]
    obtain ⟨n, e, rfl⟩ := (isArray_iff u).1 ha
    exact .array n e a st

private theorem equalsValue_of {E : Env} {C : Cmp} {v : Vnt} {t : CType} {x : Addr} (rv : Regular v) (rw' : Regular (refTo t x)) :
    EqualsValue E C v t x (refTo t x) (eq E C v t x).1 := by
  have he := equals_of (E := E) (C := C) rv rw'
  unfold eq
  rw [show (⟨some ⟨true, addConst t⟩, 0, x⟩ : Vnt) = refTo t x from rfl]
  generalize hq : equal E C v (refTo t x) = Q at he
  cases Q with
  | throw => exact .direct _ he (by simp)
  | terminate => exact .direct _ he (by simp)
  | ub => exact .direct _ he (by simp)
  | diverge => exact .direct _ he (by simp)
  | ok b =>
    cases b with
    | true => exact .direct _ he (by simp)
    | false =>
      cases hv : v.held with
      | none => exact .empty hv
      | some h =>
        obtain ⟨a, st, _⟩ := stands_of hv
        have hp := place_access st
        have t1 := tried_of (E := E) (C := C) (S := h.u) (T := t) (a := v.access) (x := x) (b := .stack)
        have t2 := tried_of (E := E) (C := C) (S := t) (T := h.u) (a := x) (x := a) (b := .heap)
        simp only
        rw [object_right hv st]
        have hno : (E.conv t.fullDecay h.u.fullDecay).isSome = false → (convertCompare E C t h.u x a .heap).1 = .ok none := by
          intro k
          unfold convertCompare
          cases hc : E.conv t.fullDecay h.u.fullDecay with
          | none => rfl
          | some c => rw [hc] at k; cases k
        generalize convertCompare E C h.u t v.access x .stack = p at *
        generalize convertCompare E C t h.u x a .heap = p' at *
        obtain ⟨p1, p2⟩ := p
        obtain ⟨q1, q2⟩ := p'
        simp only at t1 t2 hno
        cases p1 with
        | throw e => exact .forth _ a _ _ _ he st hp t1 rfl
        | terminate => exact .forth _ a _ _ _ he st hp t1 rfl
        | ub => exact .forth _ a _ _ _ he st hp t1 rfl
        | diverge => exact .forth _ a _ _ _ he st hp t1 rfl
        | ok o =>
          cases o with
          | some r => exact .forth _ a _ _ _ he st hp t1 rfl
          | none =>
            simp only
            cases hc : (E.conv t.fullDecay h.u.fullDecay).isSome with
            | false =>
              simp only [Bool.false_eq_true, if_false]
              rw [hno hc] at t2
              exact .no _ a _ he st hp t1 t2
            | true =>
              simp only [if_true]
              cases q1 with
              | throw e => exact .back _ a _ _ _ he st hp t1 t2 rfl
              | terminate => exact .back _ a _ _ _ he st hp t1 t2 rfl
              | ub => exact .back _ a _ _ _ he st hp t1 t2 rfl
              | diverge => exact .back _ a _ _ _ he st hp t1 t2 rfl
              | ok o =>
                cases o with
                | some r => exact .back _ a _ _ _ he st hp t1 t2 rfl
                | none => exact .no _ a _ he st hp t1 t2

private theorem _root_.Rtti.Val.EqualsValue.unique {E : Env} {C : Cmp} {v : Vnt} {t : CType} {x : Addr} {w : Vnt} (hw : w.held ≠ none) {R R' : Ret Bool}
    (h : EqualsValue E C v t x w R) (h' : EqualsValue E C v t x w R') : R = R' := by
  have emp : ∀ {R : Ret Bool}, v.held = none → Equals E C v w R → R = .ok false := fun h e => e.unique (.oneEmpty (by simp [h, hw]))
  cases h with
  | direct _ h1 h2 =>
    cases h' with
    | direct _ k1 k2 => exact h1.unique k1
    | empty k => exact emp k h1
    | forth _ _ _ _ _ k => exact absurd (h1.unique k) h2
    | back _ _ _ _ _ k => exact absurd (h1.unique k) h2
    | no _ _ _ k => exact absurd (h1.unique k) h2
  | empty h =>
    cases h' with
    | direct _ k1 k2 => exact (emp h k1).symm
    | empty k => rfl
    | forth _ _ _ _ _ _ k => exact absurd h (held_ne k)
    | back _ _ _ _ _ _ k => exact absurd h (held_ne k)
    | no _ _ _ _ k => rfl
  | forth u a p r _ h1 h2 h3 h4 h5 =>
    cases h' with
    | direct _ k1 k2 => exact absurd (k1.unique h1) k2
    | empty k => exact absurd k (held_ne h2)
    | forth u' a' p' r' _ k1 k2 k3 k4 k5 =>
      obtain ⟨rfl, rfl⟩ := h2.unique k2; cases h3.unique k3; cases h4.unique k4
      exact Option.some.inj (h5.symm.trans k5)
    | back u' a' p' r' _ k1 k2 k3 k4 k5 =>
      obtain ⟨rfl, rfl⟩ := h2.unique k2; cases h3.unique k3; cases h4.unique k4; cases h5
    | no u' a' p' k1 k2 k3 k4 k5 =>
      obtain ⟨rfl, rfl⟩ := h2.unique k2; cases h3.unique k3; cases h4.unique k4; cases h5
  | back u a p r _ h1 h2 h3 h4 h5 h6 =>
    cases h' with
    | direct _ k1 k2 => exact absurd (k1.unique h1) k2
    | empty k => exact absurd k (held_ne h2)
    | forth u' a' p' r' _ k1 k2 k3 k4 k5 =>
      obtain ⟨rfl, rfl⟩ := h2.unique k2; cases h3.unique k3; cases h4.unique k4; cases k5
    | back u' a' p' r' _ k1 k2 k3 k4 k5 k6 =>
      obtain ⟨rfl, rfl⟩ := h2.unique k2; cases h3.unique k3; cases h5.unique k5
      exact Option.some.inj (h6.symm.trans k6)
    | no u' a' p' k1 k2 k3 k4 k5 =>
      obtain ⟨rfl, rfl⟩ := h2.unique k2; cases h3.unique k3; cases h5.unique k5; cases h6
  | no u a p h1 h2 h3 h4 h5 =>
    cases h' with
    | direct _ k1 k2 => exact absurd (k1.unique h1) k2
    | empty k => rfl
    | forth u' a' p' r' _ k1 k2 k3 k4 k5 =>
      obtain ⟨rfl, rfl⟩ := h2.unique k2; cases h3.unique k3; cases h4.unique k4; cases k5
    | back u' a' p' r' _ k1 k2 k3 k4 k5 k6 =>
      obtain ⟨rfl, rfl⟩ := h2.unique k2; cases h3.unique k3; cases h5.unique k5; cases k6
    | no => rfl

/-- C60, every outcome of `eq` on a variant and a value, of whatever types. -/
theorem C60_exact (E : Env) (C : Cmp) (v : Vnt) (t : CType) (x : Addr) (rv : Regular v) (hx : x ≠ 0) (ht : Shallow t)
    (hf : ∀ b q, t = .base b q → b.kind ≠ .func) (R : Ret Bool) :
    (eq E C v t x).1 = R ↔ EqualsValue E C v t x (refTo t x) R := by
  have st : Stands (refTo t x) (addConst t) x := .ref _ rfl
  have rw' : Regular (refTo t x) := by
    refine ⟨fun t' a s => ?_, fun b q a s => ?_, fun t' a s => ?_⟩
    · rw [(s.unique st).2]; exact hx
    · have := (s.unique st).1
      cases t with
      | base b' q' => cases this; exact hf _ _ rfl
      | ptr => cases this
      | arr => cases this
    · rw [(s.unique st).1]; unfold Shallow; rw [addConst_arity]; exact ht
  exact ⟨fun h => h ▸ equalsValue_of rv rw', fun h => EqualsValue.unique (by simp [refTo]) (equalsValue_of rv rw') h⟩

open ExQ in
/-- a pointer and a number: no converter; with converters both ways the value is converted to the variant's type when the first fails -/
example : EqualsValue env cmp (ptr true) Ex.int 7000 (refTo Ex.int 7000) (.ok false) ∧
    EqualsValue { env with conv := fun s _ => some ⟨1, .functor, fun _ => if s = Ex.int then .returns false false else .throws⟩ } cmp (ptr true)
      Ex.int 7000 (refTo Ex.int 7000) (.ok true) := by
  have hs : Shallow Ex.int := by simp [Shallow, Ex.int, CType.pointerArity]
  exact ⟨(C60_exact _ _ _ _ _ (regular_ptr true) (by decide) hs (by rintro b q h; cases h; decide) _).1 (by decide +kernel),
    (C60_exact _ _ _ _ _ (regular_ptr true) (by decide) hs (by rintro b q h; cases h; decide) _).1 (by decide +kernel)⟩

end Rtti.Props
