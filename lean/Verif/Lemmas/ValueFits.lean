import Verif.Lemmas.ValueCast
set_option autoImplicit false
namespace Rtti.Val
open Rtti Spec

theorem arrayFree_nopia {t : CType} (h : ArrayFree t) : NoPtrInArray t := by
  induction h with
  | base b q => exact .arrs (.base b q)
  | ptr q _ ih => exact .ptr q ih

theorem arrayFree_reach {t s : CType} {k : Nat} (h : ArrayFree t) (hr : Reach t k s) : k ≤ t.pointerArity := by
  induction hr with
  | here => exact Nat.zero_le _
  | ptr q _ ih => cases h with | ptr _ h => exact Nat.succ_le_succ (ih h)
  | arr => cases h

theorem arrayFree_at {t : CType} (h : ArrayFree t) (k : Nat) (hk : k ≤ t.pointerArity) : ∃ s, Reach t k s := by
  induction k generalizing t with
  | zero => exact ⟨_, .here _⟩
  | succ k ih =>
    cases h with
    | base => simp [CType.pointerArity] at hk
    | ptr q h =>
      obtain ⟨s, hs⟩ := ih h (by simp only [CType.pointerArity] at hk; omega)
      exact ⟨s, .ptr _ hs⟩

theorem compatOk_binds (S T : RType) (aS : ArrayFree S.t) (aT : ArrayFree T.t) : CompatOk S T ↔ Binds S T := by
  have e1 : effArity S T = S.t.pointerArity := by simp [effArity, aS.isArray]
  have e2 : effBit S T = S.t.constBitset.testBit := by funext i; simp [effBit, aS.isArray]
  have rS : ∀ {k s}, Reach S.t k s → (IsConst s ↔ S.t.constBitset.testBit (S.t.pointerArity - k) = true) := fun h => by
    rw [← isConst_iff, (arrayFree_nopia aS).reach h]
  have rT : ∀ {k s}, Reach T.t k s → (IsConst s ↔ T.t.constBitset.testBit (T.t.pointerArity - k) = true) := fun h => by
    rw [← isConst_iff, (arrayFree_nopia aT).reach h]
  constructor
  · intro c
    have har := c.arity
    rw [e1] at har
    have hq : ∀ k, k ≤ S.t.pointerArity → (k = 0 → T.ref ≠ .none) →
        (S.t.constBitset.testBit (S.t.pointerArity - k) = true → T.t.constBitset.testBit (T.t.pointerArity - k) = true) ∧
        (S.t.constBitset.testBit (S.t.pointerArity - k) = false → T.t.constBitset.testBit (T.t.pointerArity - k) = true →
          ∀ j, j < k → (j = 0 → T.ref ≠ .none) → T.t.constBitset.testBit (T.t.pointerArity - j) = true) := by
      intro k hk h0
      rcases c.masks with ⟨h1, h2⟩ | hq
      · rw [e1] at h2
        have : k = 0 := by omega
        exact absurd h1 (h0 this)
      · rw [e1, e2] at hq
        rw [← har]
        have hle : S.t.pointerArity - k ≤ (if T.ref = .none then S.t.pointerArity - 1 else S.t.pointerArity) := by
          split
          · rename_i hr
            have : k ≠ 0 := fun h => h0 h hr
            omega
          · omega
        refine ⟨(hq _ hle).1, fun h1 h2 j hj hj0 => (hq _ hle).2 h1 h2 _ (by omega) ?_⟩
        split
        · rename_i hr
          have : j ≠ 0 := fun h => hj0 h hr
          omega
        · omega
    refine ⟨⟨_, (depth_iff _ _).2 rfl, (depth_iff _ _).2 har⟩, fun h => (c.lref h).imp_right (isConst_iff _).1, c.rref,
      ?_, ?_⟩
    · intro k s t hs ht h0 hc
      rw [rT ht]
      exact (hq k (arrayFree_reach aS hs) h0).1 ((rS hs).1 hc)
    · intro k s t hs ht h0 hc hn j t' hj hj0 hr
      rw [rT hr]
      refine (hq k (arrayFree_reach aS hs) h0).2 ?_ ((rT ht).1 hc) j hj hj0
      rw [rS hs] at hn
      simpa using hn
  · intro h
    obtain ⟨d, d1, d2⟩ := h.depth
    rw [depth_iff] at d1 d2
    have har : S.t.pointerArity = T.t.pointerArity := d1.symm.trans d2
    refine ⟨fun g => (h.lref g).imp_right (isConst_iff _).2, h.rref, by simp [aS.isArray], by rw [e1, har], ?_⟩
    rw [e1, e2]
    by_cases h0 : T.ref = .none ∧ S.t.pointerArity = 0
    · exact .inl h0
    · right
      intro i hi
      have hi' : i ≤ S.t.pointerArity := by split at hi <;> omega
      have ek : S.t.pointerArity - (S.t.pointerArity - i) = i := by omega
      obtain ⟨s, hs⟩ := arrayFree_at aS (S.t.pointerArity - i) (by omega)
      obtain ⟨t, ht⟩ := arrayFree_at aT (S.t.pointerArity - i) (by omega)
      have hk0 : S.t.pointerArity - i = 0 → T.ref ≠ .none := by
        intro h1 h2
        rw [if_pos h2] at hi
        apply h0
        exact ⟨h2, by omega⟩
      have hS' := rS hs
      have hT' := rT ht
      rw [ek] at hS'
      rw [← har, ek] at hT'
      refine ⟨fun hc => hT'.1 (h.keep _ _ _ hs ht hk0 (hS'.2 hc)), fun hc hc' j hj hj' => ?_⟩
      have hj'' : j ≤ S.t.pointerArity := by split at hj' <;> omega
      obtain ⟨t', ht'⟩ := arrayFree_at aT (S.t.pointerArity - j) (by omega)
      have hT'' := rT ht'
      rw [← har, show S.t.pointerArity - (S.t.pointerArity - j) = j by omega] at hT''
      refine hT''.1 (h.add _ _ _ hs ht hk0 (hT'.2 hc') (fun g => ?_) _ _ (by omega) ?_ ht')
      · rw [hS'.1 g] at hc; cases hc
      · intro h1 h2
        rw [if_pos h2] at hj'
        apply h0
        exact ⟨h2, by omega⟩

theorem fits_iff_binds (S T : RType) (hS : Shallow S.t) (hT : Shallow T.t) (aS : ArrayFree S.t) (aT : ArrayFree T.t) :
    Fits S T ↔ Binds S T := by
  obtain ⟨b, e, hb⟩ := compatible_iff S T hS hT
  have : Fits S T ↔ CompatOk S T := by
    unfold Fits; rw [e, ← hb]; simp
  rw [this, compatOk_binds S T aS aT]

theorem sameDecay_addConst {s t : CType} : SameDecay s (addConst t) ↔ SameDecay s t := by
  rw [← fullDecay_iff, ← fullDecay_iff, addConst_fullDecay]

/-- asking for `T const` refers to the same place as asking for `T` -/
theorem refers_addConst {E : Env} {v : Vnt} {t : CType} {a : Addr} : Refers E v (addConst t) a ↔ Refers E v t a := by
  constructor
  · intro h
    cases h with
    | same u a s hd ha =>
      refine .same u a s (sameDecay_addConst.1 hd) (ha.imp_right fun h => ?_)
      rw [arr_iff] at h ⊢
      rwa [addConst_isArray] at h
    | decayed n e x s hd hn =>
      refine .decayed n e x s (sameDecay_addConst.1 hd) ?_
      rw [not_arr_iff] at hn ⊢
      rwa [addConst_isArray] at hn
    | sub b c q r x a hs hb hc hne ht h1 h2 =>
      cases t with
      | base b' q' => cases ht; exact .sub _ _ q q' x a hs hb hc hne rfl h1 h2
      | ptr => cases ht
      | arr => cases ht
    | subPtr b c q q' r r' x a hs hb hc hne ht h1 h2 h3 =>
      cases t with
      | base => cases ht
      | ptr q1 t1 => cases ht; exact .subPtr _ _ q q' q1 r' x a hs hb hc hne rfl h1 h2 h3
      | arr => cases ht
  · intro h
    cases h with
    | same u a s hd ha =>
      refine .same u a s (sameDecay_addConst.2 hd) (ha.imp_right fun h => ?_)
      rw [arr_iff] at h ⊢
      rwa [addConst_isArray]
    | decayed n e x s hd hn =>
      refine .decayed n e x s (sameDecay_addConst.2 hd) ?_
      rw [not_arr_iff] at hn ⊢
      rwa [addConst_isArray]
    | sub b c q r x a hs hb hc hne ht h1 h2 =>
      subst ht
      exact .sub b c q ⟨true, r.v⟩ x a hs hb hc hne rfl h1 h2
    | subPtr b c q q' r r' x a hs hb hc hne ht h1 h2 h3 =>
      subst ht
      exact .subPtr b c q q' ⟨true, r.v⟩ r' x a hs hb hc hne rfl h1 h2 h3

theorem target_t (acc : Access) (t : CType) : (acc.target t).t = t ∨ (acc.target t).t = addConst t := by
  cases acc <;> simp [Access.target]

theorem refers_target {E : Env} {v : Vnt} {acc : Access} {t : CType} {a : Addr} :
    Refers E v (acc.target t).t a ↔ Refers E v t a := by
  rcases target_t acc t with e | e <;> rw [e]
  exact refers_addConst

theorem shallow_target {acc : Access} {t : CType} (h : Shallow t) : Shallow (acc.target t).t := by
  unfold Shallow at *
  rcases target_t acc t with e | e <;> rw [e]
  · exact h
  · rwa [addConst_arity]

theorem addConst_arrayFree {t : CType} (h : ArrayFree t) : ArrayFree (addConst t) := by
  cases h with
  | base => exact .base _ _
  | ptr q h => exact .ptr _ h

theorem removeCv_arrayFree {t : CType} (h : ArrayFree t) : ArrayFree t.removeCv := by
  cases h with
  | base => exact .base _ _
  | ptr q h => exact .ptr _ h

theorem target_arrayFree {acc : Access} {t : CType} (h : ArrayFree t) : ArrayFree (acc.target t).t := by
  rcases target_t acc t with e | e <;> rw [e]
  · exact h
  · exact addConst_arrayFree h

theorem type_arrayFree {h : Held} (a : Attr) (hf : ArrayFree h.u) : ArrayFree (h.type a).t := by
  rcases type_t h a with e | e <;> rw [e]
  · exact hf
  · exact addConst_arrayFree hf

end Rtti.Val
