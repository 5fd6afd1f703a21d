import Verif.Lemmas.Value
set_option autoImplicit false
namespace Rtti.Val
open Rtti Spec

theorem compat_cases (S T : RType) (hS : Shallow S.t) (hT : Shallow T.t) :
    (Fits S T ∧ CompatOk S T ∧ compat S T = .ok true) ∨ (¬Fits S T ∧ ¬CompatOk S T ∧ compat S T = .ok false) := by
  obtain ⟨b, e, hb⟩ := compatible_iff S T hS hT
  unfold Fits compat
  rw [e]
  cases b with
  | true => exact .inl ⟨rfl, hb.1 rfl, rfl⟩
  | false => exact .inr ⟨by simp, fun h => by simpa using hb.2 h, rfl⟩

theorem fits_arity {S T : RType} (h : Fits S T) (ha : S.t.isArray = false) : S.t.pointerArity % 65536 = T.t.pointerArity % 65536 := by
  unfold Fits compatible at h
  rw [describe_isArray, ha] at h
  split at h
  · cases h
  split at h
  · cases h
  simp only [Bool.false_and, Bool.false_eq_true, if_false] at h
  split at h
  · cases h
  · next hn => exact (by simpa using hn : (describe S).arity = (describe T).arity)

theorem compat_some (S T : RType) (hc : compatible (describe S) (describe T) ≠ none) :
    (Fits S T ∧ compat S T = .ok true) ∨ (¬Fits S T ∧ compat S T = .ok false) := by
  unfold Fits compat
  cases e : compatible (describe S) (describe T) with
  | none => exact absurd e hc
  | some b => cases b <;> simp

theorem compat_shallow {S T : RType} (hS : Shallow S.t) (hT : Shallow T.t) : compatible (describe S) (describe T) ≠ none := by
  obtain ⟨b, e, _⟩ := compatible_iff S T hS hT
  rw [e]; nofun

theorem Sound.access_ne {E : Env} {v : Vnt} (s : Sound E v) {h : Held} (e : v.held = some h) : v.access ≠ 0 := by
  obtain ⟨a, st, h1, h2⟩ := stands_of e
  cases ha : h.u.isArray with
  | false => rw [h1 ha]; exact s.object _ _ st
  | true => rw [(h2 ha).1]; exact s.self

theorem Refers.unique {rank : TypeId → Nat} {E : Env} (r : Reachable rank E.w) {v : Vnt} {t : CType} {a a' : Addr}
    (sd : Sound E v) (h : Refers E v t a) (h' : Refers E v t a') : a = a' := by
  have sub : ∀ {b c : Base} {q r' : CV}, b.kind = .cls → SameDecay (.base b q) (.base c r') → b = c := by
    rintro b c q r' hb (⟨e, e', h1, h2, _⟩ | ⟨b', q1, q2, _, e1, e2⟩)
    · cases h1 with | func _ _ hf => rw [hb] at hf; cases hf
    · cases e1; cases e2; rfl
  have subP : ∀ {b c : Base} {q q' r' r'' : CV}, SameDecay (.ptr q (.base b q')) (.ptr r' (.base c r'')) → b = c := by
    rintro b c q q' r' r'' (⟨e, e', h1, h2, h3⟩ | ⟨b', q1, q2, _, e1, e2⟩)
    · cases h1; cases h2; cases h3; rfl
    · cases e1
  cases h with
  | same u a s hd ha =>
    cases h' with
    | same u' a' s' _ _ => exact (s.unique s').2
    | decayed n e x s' _ hn =>
      obtain ⟨rfl, _⟩ := s.unique s'
      rcases ha with ha | ⟨n', e', rfl⟩
      · exact absurd rfl (ha n e)
      · exact absurd rfl (hn n' e')
    | sub b c q r' x a hs hb hc hne ht _ _ =>
      obtain ⟨rfl, _⟩ := s.unique hs
      subst ht
      exact absurd (sub hb hd) hne
    | subPtr b c q q' r' r'' x a hs hb hc hne ht _ _ _ =>
      obtain ⟨rfl, _⟩ := s.unique hs
      subst ht
      exact absurd (subP hd) hne
  | decayed n e x s hd hn =>
    cases h' with
    | same u' a' s' _ ha =>
      obtain ⟨rfl, _⟩ := s.unique s'
      rcases ha with ha | ⟨n', e', rfl⟩
      · exact absurd rfl (ha n e)
      · exact absurd rfl (hn n' e')
    | decayed => rfl
    | sub b c q r' x a hs => obtain ⟨e, _⟩ := s.unique hs; cases e
    | subPtr => rfl
  | sub b c q r' x a hs hb hc hne ht h1 _ =>
    cases h' with
    | same u' a' s' hd' ha =>
      obtain ⟨rfl, _⟩ := hs.unique s'
      subst ht
      exact absurd (sub hb hd') hne
    | decayed n e x s' => obtain ⟨e, _⟩ := hs.unique s'; cases e
    | sub b' c' q' r'' x' a' hs' hb' hc' hne' ht' h1' _ =>
      rw [ht] at ht'; cases ht'
      exact h1.unique r h1'
    | subPtr b' c' q' r'' r1 r2 x' a' hs' => obtain ⟨e, _⟩ := hs.unique hs'; cases e
  | subPtr b c q q' r' r'' x a hs hb hc hne ht h1 _ _ =>
    cases h' with
    | same u' a' s' hd' ha =>
      obtain ⟨rfl, _⟩ := hs.unique s'
      subst ht
      exact absurd (subP hd') hne
    | decayed => rfl
    | sub b' c' q' r'' x' a' hs' => obtain ⟨e, _⟩ := hs.unique hs'; cases e
    | subPtr => rfl

theorem sameDecay_base {b c : Base} {q r : CV} (hb : b.kind = .cls) : SameDecay (.base b q) (.base c r) ↔ b = c := by
  constructor
  · rintro (⟨e, e', h1, h2, _⟩ | ⟨b', q1, q2, _, e1, e2⟩)
    · cases h1 with | func _ _ hf => rw [hb] at hf; cases hf
    · cases e1; cases e2; rfl
  · rintro rfl
    exact .inr ⟨b, q, r, by simp [hb], rfl, rfl⟩

theorem sameDecay_ptr {b c : Base} {q q' r r' : CV} :
    SameDecay (.ptr q (.base b q')) (.ptr r (.base c r')) ↔ b = c := by
  constructor
  · rintro (⟨e, e', h1, h2, h3⟩ | ⟨b', q1, q2, _, e1, e2⟩)
    · cases h1; cases h2; cases h3; rfl
    · cases e1
  · rintro rfl
    exact .inl ⟨_, _, .ptr _ _, .ptr _ _, .base _ _ _⟩

theorem metafuncCast_gen {rank : TypeId → Nat} {E : Env} (r : Reachable rank E.w) {v : Vnt} (sd : Sound E v) {h : Held}
    (e : v.held = some h) (at' : Attr) (T : RType) (hS : h.t.pointerArity < 65536) (hT : T.t.pointerArity < 65536)
    (hco : compatible (describe (h.type at')) (describe T) ≠ none) :
    (metafuncCast E v (h.type at') T = .ub ∧ NullObject E v ∧ Fits (h.type at') T) ∨
    (∃ a, metafuncCast E v (h.type at') T = .ok a ∧ Fits (h.type at') T ∧ Refers E v T.t a ∧ a ≠ 0) ∨
    (metafuncCast E v (h.type at') T = .throw .badVariantCast ∧ (¬Fits (h.type at') T ∨ ∀ a, ¬Refers E v T.t a)) := by
  obtain ⟨a, st, h1, h2⟩ := stands_of e
  have hne := sd.access_ne e
  unfold metafuncCast
  rw [if_neg (by simp [e])]
  rcases compat_some _ _ hco with ⟨hf, ec⟩ | ⟨hf, ec⟩
  case inr => exact .inr (.inr ⟨by rw [ec]; simp [Ret.bind], .inl hf⟩)
  have harity : h.u.isArray = false → h.u.pointerArity = T.t.pointerArity := by
    intro ha
    have := fits_arity hf (by rw [type_isArray]; exact ha)
    rw [type_arity, u_arity] at this
    rw [u_arity]
    omega
  rw [ec]
  simp only [Ret.bind, Bool.not_true, Bool.false_eq_true, if_false]
  by_cases hd : (h.type at').t.fullDecay = T.t.fullDecay
  · rw [if_pos hd]
    rw [type_fullDecay, fullDecay_iff] at hd
    simp only [if_neg hne]
    refine .inr (.inl ?_)
    cases ha : h.u.isArray with
    | false =>
      have hTa : T.t.isArray = false := by
        cases hTa : T.t.isArray with
        | false => rfl
        | true =>
          exfalso
          have hz : T.t.pointerArity = 0 := arity_arr hTa
          have har := harity ha
          rw [hz] at har
          obtain ⟨n, el, hTe⟩ := (arr_iff _).2 hTa
          rw [hTe] at hd
          cases hu : h.u with
          | base b q =>
            rw [hu] at hd st
            rcases hd with ⟨_, _, h3, _⟩ | ⟨_, _, _, _, _, h3⟩
            · cases h3 with | func _ _ hf => exact sd.nofunc _ _ _ st hf
            · cases h3
          | ptr q t => rw [hu] at har; simp [CType.pointerArity] at har
          | arr n t => rw [hu] at ha; cases ha
      rw [hTa]
      exact ⟨v.access, rfl, hf, by rw [h1 ha]; exact .same _ _ st hd (.inl ((not_arr_iff _).2 ha)), hne⟩
    | true =>
      obtain ⟨h3, rfl⟩ := h2 ha
      obtain ⟨n, el, hu⟩ := (arr_iff _).2 ha
      rw [h3]
      cases hTa : T.t.isArray with
      | false =>
        rw [hu] at st hd
        exact ⟨v.self, rfl, hf, .decayed n el _ st hd ((not_arr_iff _).2 hTa), sd.self⟩
      | true =>
        rw [if_pos rfl, sd.word]
        exact ⟨v.ptr, rfl, hf, .same _ _ st hd (.inr ((arr_iff _).2 hTa)), sd.object _ _ st⟩
  · rw [if_neg hd]
    rw [type_fullDecay, fullDecay_iff] at hd
    -- what is not a reference to a subobject
    have hnr : ∀ x, Refers E v T.t x →
        (∃ b c q r y z, h.u = .base b q ∧ b.kind = .cls ∧ c.kind = .cls ∧ b ≠ c ∧ T.t = .base c r ∧ Subobject E v c z ∧ z ≠ 0 ∧
          z = x ∧ Stands v (.base b q) y) ∨
        (∃ b c q q' r r' z, h.u = .ptr q (.base b q') ∧ b.kind = .cls ∧ c.kind = .cls ∧ b ≠ c ∧ T.t = .ptr r (.base c r') ∧
          Subobject E v c z ∧ z ≠ 0 ∧ z = v.ptr ∧ x = v.self) := by
      intro x hx
      cases hx with
      | same u a' s' hd' _ => obtain ⟨rfl, _⟩ := st.unique s'; exact absurd hd' hd
      | decayed n el a' s' hd' _ => obtain ⟨e', _⟩ := st.unique s'; rw [e'] at hd; exact absurd hd' hd
      | sub b c q r' x' a' hs hb hc hne' ht hz hz0 =>
        obtain ⟨e', _⟩ := st.unique hs
        exact .inl ⟨b, c, q, r', x', _, e', hb, hc, hne', ht, hz, hz0, rfl, hs⟩
      | subPtr b c q q' r1 r2 x' a' hs hb hc hne' ht hz hz0 hzp =>
        obtain ⟨e', _⟩ := st.unique hs
        exact .inr ⟨b, c, q, q', r1, r2, a', e', hb, hc, hne', ht, hz, hz0, hzp, rfl⟩
    unfold castTo
    cases et : tag T.t with
    | nope =>
      refine .inr (.inr ⟨rfl, .inr fun x hx => ?_⟩)
      rcases hnr x hx with ⟨b, c, q, r', y, z, _, _, hc, _, ht, _⟩ | ⟨b, c, q, q', r1, r2, z, _, _, hc, _, ht, _⟩
      · rw [(tag_cls _ _).2 ⟨_, ht, hc⟩] at et; cases et
      · rw [(tag_clsPtr _ _).2 ⟨hc, .inl ⟨_, _, ht⟩⟩] at et; cases et
    | cls c =>
      obtain ⟨r', ht, hc⟩ := (tag_cls _ _).1 et
      simp only
      cases hcl : (describe (h.type at')).isClass with
      | false =>
        refine .inr (.inr ⟨by simp [Ret.bind], .inr fun x hx => ?_⟩)
        rw [describe_isClass, type_baseType, type_isPointer] at hcl
        rcases hnr x hx with ⟨b, c', q, r1, y, z, hu, hb, _⟩ | ⟨b, c', q, q', r1, r2, z, _, _, _, _, ht', _⟩
        · rw [hu] at hcl; simp [CType.baseType, hb, CType.isPointer] at hcl
        · rw [ht] at ht'; cases ht'
      | true =>
        rw [describe_isClass, type_baseType, type_isPointer] at hcl
        rw [if_pos rfl]
        rcases imp_cases r v c with ⟨hn, ei, _⟩ | ⟨_, p, b, ei, _, _, hsub, _⟩
        · exact .inl ⟨by rw [ei], hn, hf⟩
        · rw [ei]
          simp only [Ret.bind]
          by_cases hp : p = 0
          · subst hp
            refine .inr (.inr ⟨by simp, .inr fun x hx => ?_⟩)
            rcases hnr x hx with ⟨b', c', q, r1, y, z, hu, hb, hc', hne', ht', hz, hz0, _⟩ | ⟨b, c', q, q', r1, r2, z, _, _, _, _, ht', _⟩
            · rw [ht] at ht'; cases ht'
              exact hz0 ((hsub z hz0).2 hz).symm
            · rw [ht] at ht'; cases ht'
          · have hs := (hsub p hp).1 rfl
            refine .inr (.inl ⟨p, by simp [hp, ht, CType.isArray], hf, ?_, hp⟩)
            obtain ⟨d, e', i, fs, ⟨b', x, t, hdes, _⟩, _⟩ := hs
            cases hdes with
            | object q y hb s' =>
              obtain ⟨hu, _⟩ := st.unique s'
              refine .sub b' c q r' x p s' hb hc ?_ ht ((hsub p hp).1 rfl) hp
              rintro rfl
              rw [hu, ht] at hd
              exact hd ((sameDecay_base hb).2 rfl)
            | pointer q q' y hb s' =>
              obtain ⟨hu, _⟩ := st.unique s'
              rw [hu] at hcl
              simp [CType.isPointer] at hcl
    | clsPtr c =>
      obtain ⟨hc, ht⟩ := (tag_clsPtr _ _).1 et
      simp only
      cases hcl : (describe (h.type at')).isClassPtr with
      | false =>
        refine .inr (.inr ⟨by simp [Ret.bind], .inr fun x hx => ?_⟩)
        rw [describe_isClassPtr, type_baseType, type_isPointer, type_arity] at hcl
        rcases hnr x hx with ⟨b, c', q, r1, y, z, hu, hb, _, _, ht', _⟩ | ⟨b, c', q, q', r1, r2, z, hu, hb, _, _, ht', _⟩
        · rcases ht with ⟨_, _, ht⟩ | ⟨_, _, ht⟩ <;> (rw [ht] at ht'; cases ht')
        · rw [hu] at hcl; simp [CType.baseType, hb, CType.isPointer, CType.pointerArity] at hcl
      | true =>
        rw [describe_isClassPtr, type_baseType, type_isPointer, type_arity] at hcl
        have hptr : h.u.isPointer = true := by simp_all
        have hna : h.u.isArray = false := by
          cases hu : h.u <;> rw [hu] at hptr <;> first | rfl | cases hptr
        have ht : ∃ q q', T.t = .ptr q (.base c q') := by
          rcases ht with ht | ⟨n, q, ht⟩
          · exact ht
          · exfalso
            have := harity hna
            rw [ht] at this
            have := Props.arity_pos hptr
            simp [CType.pointerArity] at *
            omega
        obtain ⟨r1, r2, ht⟩ := ht
        rw [if_pos rfl]
        rcases imp_cases r v c with ⟨hn, ei, _⟩ | ⟨_, p, b, ei, _, _, hsub, _⟩
        · exact .inl ⟨by rw [ei]; rfl, hn, hf⟩
        · rw [ei]
          simp only [Ret.bind]
          have key : ∀ x, Refers E v T.t x → p ≠ 0 ∧ p = v.ptr ∧ x = v.self := by
            intro x hx
            rcases hnr x hx with ⟨b', c', q, r1, y, z, hu, hb, hc', hne', ht', _⟩ | ⟨b, c', q, q', r1, r2, z, _, _, _, _, ht', hz, hz0, hzp, hxs⟩
            · rw [ht] at ht'; cases ht'
            · rw [ht] at ht'; cases ht'
              have := (hsub z hz0).2 hz
              subst this
              exact ⟨hz0, hzp, hxs⟩
          by_cases hp : p = 0
          · subst hp
            exact .inr (.inr ⟨by simp, .inr fun x hx => (key x hx).1 rfl⟩)
          · by_cases hpp : p = v.ptr
            · refine .inr (.inl ⟨v.self, by rw [if_neg hp, if_pos hpp]; simp [sd.self, ht, CType.isArray], hf, ?_, sd.self⟩)
              have hs := (hsub p hp).1 rfl
              obtain ⟨d, e', i, fs, ⟨b', x, t, hdes, _⟩, _⟩ := hs
              cases hdes with
              | object q y hb s' =>
                obtain ⟨hu, _⟩ := st.unique s'
                rw [hu] at hptr; cases hptr
              | pointer q q' y hb s' =>
                obtain ⟨hu, _⟩ := st.unique s'
                refine .subPtr b' c q q' r1 r2 y p s' hb hc ?_ ht ((hsub p hp).1 rfl) hp hpp
                rintro rfl
                rw [hu, ht] at hd
                exact hd (sameDecay_ptr.2 rfl)
            · exact .inr (.inr ⟨by rw [if_neg hp, if_neg hpp], .inr fun x hx => hpp (key x hx).2.1⟩)

theorem metafuncCast_spec {rank : TypeId → Nat} {E : Env} (r : Reachable rank E.w) {v : Vnt} (sd : Sound E v) {h : Held}
    (e : v.held = some h) (at' : Attr) (T : RType) (hS : Shallow h.t) (hT : Shallow T.t) :
    (metafuncCast E v (h.type at') T = .ub ∧ NullObject E v ∧ Fits (h.type at') T) ∨
    (∃ a, metafuncCast E v (h.type at') T = .ok a ∧ Fits (h.type at') T ∧ Refers E v T.t a ∧ a ≠ 0) ∨
    (metafuncCast E v (h.type at') T = .throw .badVariantCast ∧ (¬Fits (h.type at') T ∨ ∀ a, ¬Refers E v T.t a)) := by
  refine metafuncCast_gen r sd e at' T (by unfold Shallow at hS; omega) (by unfold Shallow at hT; omega) (compat_shallow ?_ hT)
  unfold Shallow; rw [type_arity, u_arity]; exact hS

end Rtti.Val
