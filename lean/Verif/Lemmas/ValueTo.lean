import Verif.Lemmas.ValueFits
set_option autoImplicit false
namespace Rtti.Val
open Rtti Spec

theorem Place.unique {v : Vnt} {a a' : Addr} (h : Place v a) (h' : Place v a') : a = a' := by
  cases h with
  | object u a s hu =>
    cases h' with
    | object u' a' s' _ => exact (s.unique s').2
    | array n e a' s' => exact absurd (s.unique s').1 (hu n e)
  | array n e a s =>
    cases h' with
    | object u' a' s' hu => exact absurd (s'.unique s).1 (hu n e)
    | array => rfl

theorem place_access {v : Vnt} {h : Held} (e : v.held = some h) : Place v v.access := by
  obtain ⟨a, s, h1, h2⟩ := stands_of e
  cases ha : h.u.isArray with
  | false => rw [h1 ha]; exact .object _ _ s ((not_arr_iff _).2 ha)
  | true =>
    rw [(h2 ha).1]
    obtain ⟨n, el, hu⟩ := (arr_iff _).2 ha
    rw [hu] at s
    exact .array n el a s

theorem copies_unique {E : Env} {t : CType} {a : Addr} {R R' : Ret Made} (h : Copies E t a R) (h' : Copies E t a R') : R = R' := by
  cases h <;> cases h' <;> simp_all

theorem converts_unique {c : Conv} {a : Addr} {R R' : Ret Made} (h : Converts c a R) (h' : Converts c a R') : R = R' := by
  cases h <;> cases h' <;> first | rfl | grind

theorem upClass_unique {rank : TypeId → Nat} {E : Env} (r : Reachable rank E.w) {v : Vnt} {t : CType} {a a' : Addr}
    (h : UpClass E v t a) (h' : UpClass E v t a') : a = a' := by
  obtain ⟨b, c, q, r1, x, _, _, _, _, rfl, h1, _⟩ := h
  obtain ⟨b', c', q', r1', x', _, _, _, _, e, h1', _⟩ := h'
  cases e
  exact h1.unique r h1'

theorem upPtr_unique {rank : TypeId → Nat} {E : Env} (r : Reachable rank E.w) {v : Vnt} {t : CType} {a a' : Addr}
    (h : UpPtr E v t a) (h' : UpPtr E v t a') : a = a' := by
  obtain ⟨b, c, q, q1, r1, r2, x, _, _, _, _, rfl, h1, _⟩ := h
  obtain ⟨b', c', q', q1', r1', r2', x', _, _, _, _, e, h1', _⟩ := h'
  cases e
  exact h1.unique r h1'

theorem not_both {E : Env} {v : Vnt} {t : CType} {a a' : Addr} (h : UpClass E v t a) (h' : UpPtr E v t a') : False := by
  obtain ⟨b, c, q, r1, x, _, _, _, _, rfl, _⟩ := h
  obtain ⟨b', c', q', q1', r1', r2', x', _, _, _, _, e, _⟩ := h'
  cases e

theorem gives_unique {rank : TypeId → Nat} {E : Env} (r : Reachable rank E.w) {v : Vnt} {S : RType} {t : CType} {R R' : Ret Made}
    (h : Gives E v S t R) (h' : Gives E v S t R') : R = R' := by
  have dS : ∀ {f : Fits S ⟨.none, t⟩}, SameDecay S.t t → Direct E v S t := fun {f} h => ⟨f, .inl h⟩
  cases h with
  | same a R f s p c =>
    cases h' with
    | same a' R' f' s' p' c' => obtain rfl := p.unique p'; exact copies_unique c c'
    | up a' R' f' s' => exact absurd s s'
    | upPtr a' f' s' => exact absurd s s'
    | conv a' c' R' d => exact absurd ⟨f, .inl s⟩ d
    | none a' d => exact absurd ⟨f, .inl s⟩ d
  | up a R f s p c =>
    cases h' with
    | same a' R' f' s' p' c' => exact absurd s' s
    | up a' R' f' s' p' c' => obtain rfl := upClass_unique r p p'; exact copies_unique c c'
    | upPtr a' f' s' p' => exact (not_both p p').elim
    | conv a' c' R' d => exact absurd ⟨f, .inr ⟨_, .inl p⟩⟩ d
    | none a' d => exact absurd ⟨f, .inr ⟨_, .inl p⟩⟩ d
  | upPtr a f s p =>
    cases h' with
    | same a' R' f' s' p' c' => exact absurd s' s
    | up a' R' f' s' p' c' => exact (not_both p' p).elim
    | upPtr a' f' s' p' => obtain rfl := upPtr_unique r p p'; rfl
    | conv a' c' R' d => exact absurd ⟨f, .inr ⟨_, .inr p⟩⟩ d
    | none a' d => exact absurd ⟨f, .inr ⟨_, .inr p⟩⟩ d
  | conv a c R d p e k =>
    cases h' with
    | same a' R' f' s' => exact absurd ⟨f', .inl s'⟩ d
    | up a' R' f' s' p' => exact absurd ⟨f', .inr ⟨_, .inl p'⟩⟩ d
    | upPtr a' f' s' p' => exact absurd ⟨f', .inr ⟨_, .inr p'⟩⟩ d
    | conv a' c' R' d' p' e' k' =>
      obtain rfl := p.unique p'
      rw [e] at e'; cases e'
      exact converts_unique k k'
    | none a' d' p' e' => rw [e] at e'; cases e'
  | none a d p e =>
    cases h' with
    | same a' R' f' s' => exact absurd ⟨f', .inl s'⟩ d
    | up a' R' f' s' p' => exact absurd ⟨f', .inr ⟨_, .inl p'⟩⟩ d
    | upPtr a' f' s' p' => exact absurd ⟨f', .inr ⟨_, .inr p'⟩⟩ d
    | conv a' c' R' d' p' e' k' => rw [e] at e'; cases e'
    | none => rfl

theorem copyable_iff {t : CType} (hf : ∀ b q, t = .base b q → b.kind ≠ .func) (ha : t.isArray = false) :
    copyable t = true ↔ CopyOk t := by
  unfold copyable CopyOk
  cases t with
  | base b q =>
    have := hf b q rfl
    simp [CType.fullDecay, CType.decay, this, CType.removeAllCv]
  | ptr q t => simp [CType.fullDecay, CType.decay, CType.removeAllCv]
  | arr => cases ha

theorem copyConstruct_copies (E : Env) {t : CType} (a : Addr) (hf : ∀ b q, t = .base b q → b.kind ≠ .func) (ha : t.isArray = false) :
    Copies E t a (copyConstruct E t a) := by
  have := copyable_iff hf ha
  unfold copyConstruct
  split
  · rename_i h
    split
    · rename_i h'; exact .throws (this.1 h) h'
    · rename_i h'; exact .done (this.1 h) (by simpa using h')
  · rename_i h
    exact .refused fun g => h (this.2 g)

theorem convert_cases (E : Env) (a : Addr) (S t : CType) :
    (E.conv S.fullDecay t.fullDecay = none ∧ convert E a S t = .ok none) ∨
    (∃ c, E.conv S.fullDecay t.fullDecay = some c ∧ ∃ R, Converts c a R ∧
      R = (convert E a S t).bind fun r => match r with | some m => .ok m | none => .throw .badVariantConvert) := by
  unfold convert
  cases e : E.conv S.fullDecay t.fullDecay with
  | none => exact .inl ⟨rfl, rfl⟩
  | some c =>
    refine .inr ⟨c, rfl, _, ?_, rfl⟩
    simp only
    cases hk : c.kind <;> cases hc : c.call a with
    | throws =>
      simp only [runConverter, Ret.bind]
      first | exact .swallowed (.inl hc) hk | exact .threw (.inl hc) hk
    | returns f x =>
      cases x <;> cases f <;> simp only [runConverter, Ret.bind] <;>
        first
        | exact .done _ hc (by simp [hk])
        | exact .declined hc hk
        | exact .swallowed (.inr ⟨_, hc⟩) hk
        | exact .threw (.inr ⟨_, hc⟩) hk

theorem toCast_cases {rank : TypeId → Nat} {E : Env} (r : Reachable rank E.w) {v : Vnt} {h : Held}
    (e : v.held = some h) (at' : Attr) (t : CType) (ha : t.isArray = false) (hd : ¬SameDecay h.u t)  :
    (toCast E v (h.type at') t = .ub ∧ NullObject E v) ∨
    (∃ a, UpClass E v t a ∧ toCast E v (h.type at') t = (copyConstruct E t a).bind fun m => .ok (some m)) ∨
    (∃ a, UpPtr E v t a ∧ toCast E v (h.type at') t = .ok (some (.pointer a))) ∨
    ((∀ a, ¬UpClass E v t a ∧ ¬UpPtr E v t a) ∧ toCast E v (h.type at') t = .ok none) := by
  obtain ⟨a, st, _, _⟩ := stands_of e
  unfold toCast
  cases et : tag t with
  | nope =>
    refine .inr (.inr (.inr ⟨fun a => ⟨?_, ?_⟩, rfl⟩))
    · rintro ⟨b, c, q, r', x, _, _, hc, _, ht, _⟩
      rw [(tag_cls _ _).2 ⟨_, ht, hc⟩] at et; cases et
    · rintro ⟨b, c, q, q', r1, r2, x, _, _, hc, _, ht, _⟩
      rw [(tag_clsPtr _ _).2 ⟨hc, .inl ⟨_, _, ht⟩⟩] at et; cases et
  | cls c =>
    obtain ⟨r', ht, hc⟩ := (tag_cls _ _).1 et
    simp only
    have hno : ∀ a, ¬UpPtr E v t a := by
      rintro a ⟨b, c, q, q', r1, r2, x, _, _, hc, _, ht', _⟩
      rw [ht] at ht'; cases ht'
    cases hcl : (describe (h.type at')).isClass with
    | false =>
      refine .inr (.inr (.inr ⟨fun a => ⟨?_, hno a⟩, rfl⟩))
      rw [describe_isClass, type_baseType, type_isPointer] at hcl
      rintro ⟨b, c, q, r', x, s', hb, _⟩
      obtain ⟨hu, _⟩ := st.unique s'
      rw [hu] at hcl; simp [CType.baseType, hb, CType.isPointer] at hcl
    | true =>
      rw [describe_isClass, type_baseType, type_isPointer] at hcl
      rw [if_pos rfl]
      rcases imp_cases r v c with ⟨hn, ei, _⟩ | ⟨_, p, b, ei, _, _, hsub, _⟩
      · exact .inl ⟨by rw [ei]; rfl, hn⟩
      · rw [ei]
        simp only [Ret.bind]
        by_cases hp : p = 0
        · subst hp
          refine .inr (.inr (.inr ⟨fun a => ⟨?_, hno a⟩, by simp⟩))
          rintro ⟨b', c', q, r1, x, _, _, _, _, ht', hz, hz0⟩
          rw [ht] at ht'; cases ht'
          exact hz0 ((hsub _ hz0).2 hz).symm
        · have hs := (hsub p hp).1 rfl
          refine .inr (.inl ⟨p, ?_, by rw [if_neg hp]⟩)
          obtain ⟨d, e', i, fs, ⟨b', x, t', hdes, _⟩, _⟩ := hs
          cases hdes with
          | object q y hb s' =>
            obtain ⟨hu, _⟩ := st.unique s'
            refine ⟨b', c, q, r', x, s', hb, hc, ?_, ht, (hsub p hp).1 rfl, hp⟩
            rintro rfl
            rw [hu, ht] at hd
            exact hd ((sameDecay_base hb).2 rfl)
          | pointer q q' y hb s' =>
            obtain ⟨hu, _⟩ := st.unique s'
            rw [hu] at hcl
            simp [CType.isPointer] at hcl
  | clsPtr c =>
    obtain ⟨hc, ht⟩ := (tag_clsPtr _ _).1 et
    have ht : ∃ q q', t = .ptr q (.base c q') := by
      rcases ht with ht | ⟨n, q, ht⟩
      · exact ht
      · rw [ht] at ha; cases ha
    obtain ⟨r1, r2, ht⟩ := ht
    simp only
    have hno : ∀ a, ¬UpClass E v t a := by
      rintro a ⟨b, c, q, r', x, _, _, hc, _, ht', _⟩
      rw [ht] at ht'; cases ht'
    cases hcl : (describe (h.type at')).isClassPtr with
    | false =>
      refine .inr (.inr (.inr ⟨fun a => ⟨hno a, ?_⟩, rfl⟩))
      rw [describe_isClassPtr, type_baseType, type_isPointer, type_arity] at hcl
      rintro ⟨b, c, q, q', r1, r2, x, s', hb, _⟩
      obtain ⟨hu, _⟩ := st.unique s'
      rw [hu] at hcl; simp [CType.baseType, hb, CType.isPointer, CType.pointerArity] at hcl
    | true =>
      rw [describe_isClassPtr, type_baseType, type_isPointer, type_arity] at hcl
      have hptr : h.u.isPointer = true := by simp_all
      rw [if_pos rfl]
      rcases imp_cases r v c with ⟨hn, ei, _⟩ | ⟨_, p, b, ei, _, _, hsub, _⟩
      · exact .inl ⟨by rw [ei]; rfl, hn⟩
      · rw [ei]
        simp only [Ret.bind]
        by_cases hp : p = 0
        · subst hp
          refine .inr (.inr (.inr ⟨fun a => ⟨hno a, ?_⟩, by simp⟩))
          rintro ⟨b', c', q, q', r1, r2, x, _, _, _, _, ht', hz, hz0⟩
          rw [ht] at ht'; cases ht'
          exact hz0 ((hsub _ hz0).2 hz).symm
        · have hs := (hsub p hp).1 rfl
          refine .inr (.inr (.inl ⟨p, ?_, by rw [if_neg hp]⟩))
          obtain ⟨d, e', i, fs, ⟨b', x, t', hdes, _⟩, _⟩ := hs
          cases hdes with
          | object q y hb s' =>
            obtain ⟨hu, _⟩ := st.unique s'
            rw [hu] at hptr; cases hptr
          | pointer q q' y hb s' =>
            obtain ⟨hu, _⟩ := st.unique s'
            refine ⟨b', c, q, q', r1, r2, y, s', hb, hc, ?_, ht, (hsub p hp).1 rfl, hp⟩
            rintro rfl
            rw [hu, ht] at hd
            exact hd (sameDecay_ptr.2 rfl)

theorem metafuncTo_gen {rank : TypeId → Nat} {E : Env} (r : Reachable rank E.w) {v : Vnt} {h : Held}
    (e : v.held = some h) (at' : Attr) (t : CType) (hco : compatible (describe (h.type at')) (describe ⟨.none, t⟩) ≠ none) (ha : t.isArray = false)
    (hf : ∀ b q, t = .base b q → b.kind ≠ .func) :
    (metafuncTo E v (h.type at') t = .ub ∧ NullObject E v) ∨ Gives E v (h.type at') t (metafuncTo E v (h.type at') t) := by
  have sdi : SameDecay (h.type at').t t ↔ SameDecay h.u t := by
    rw [← fullDecay_iff, ← fullDecay_iff, type_fullDecay]
  have pl := place_access e
  -- what remains when there is no direct way
  have rest : ¬Direct E v (h.type at') t →
      Gives E v (h.type at') t ((convert E v.access (h.type at').t t).bind fun r => match r with
        | some m => .ok m | none => .throw .badVariantConvert) := by
    intro nd
    rcases convert_cases E v.access (h.type at').t t with ⟨h1, h2⟩ | ⟨c, h1, R, h2, h3⟩
    · rw [h2]; exact .none _ nd pl h1
    · rw [← h3]; exact .conv _ c R nd pl h1 h2
  unfold metafuncTo
  rw [if_neg (by simp [e])]
  rcases compat_some _ ⟨.none, t⟩ hco with ⟨hf', ec⟩ | ⟨hf', ec⟩
  · rw [ec]
    simp only [Ret.bind, Bool.true_and, decide_eq_true_eq, if_true]
    by_cases hd : (h.type at').t.fullDecay = t.fullDecay
    · rw [if_pos hd]
      exact .inr (.same _ _ hf' ((fullDecay_iff _ _).1 hd) pl (copyConstruct_copies E _ hf ha))
    · rw [if_neg hd]
      have hd' : ¬SameDecay h.u t := fun h => hd ((fullDecay_iff _ _).2 (sdi.2 h))
      have hd2 : ¬SameDecay (h.type at').t t := fun h => hd ((fullDecay_iff _ _).2 h)
      rcases toCast_cases r e at' t ha hd' with ⟨h1, h2⟩ | ⟨a, h1, h2⟩ | ⟨a, h1, h2⟩ | ⟨h1, h2⟩
      · exact .inl ⟨by rw [h2 |> fun _ => h1], h2⟩
      · rw [h2]
        refine .inr (.up a _ hf' hd2 h1 ?_)
        have := copyConstruct_copies E a hf ha
        revert this
        cases copyConstruct E t a <;> simp [Ret.bind]
      · rw [h2]
        exact .inr (.upPtr a hf' hd2 h1)
      · rw [h2]
        right
        refine rest ?_
        rintro ⟨_, g | ⟨a, g | g⟩⟩
        · exact hd2 g
        · exact (h1 a).1 g
        · exact (h1 a).2 g
  · rw [ec]
    simp only [Ret.bind, Bool.false_and, Bool.false_eq_true, if_false]
    right
    refine rest ?_
    rintro ⟨g, _⟩
    exact hf' g

theorem metafuncTo_spec {rank : TypeId → Nat} {E : Env} (r : Reachable rank E.w) {v : Vnt} {h : Held}
    (e : v.held = some h) (at' : Attr) (t : CType) (hS : Shallow h.t) (hT : Shallow t) (ha : t.isArray = false)
    (hf : ∀ b q, t = .base b q → b.kind ≠ .func) :
    (metafuncTo E v (h.type at') t = .ub ∧ NullObject E v) ∨ Gives E v (h.type at') t (metafuncTo E v (h.type at') t) := by
  refine metafuncTo_gen r e at' t (compat_shallow ?_ hT) ha hf
  unfold Shallow; rw [type_arity, u_arity]; exact hS

theorem metafuncIs_gen {rank : TypeId → Nat} {E : Env} (r : Reachable rank E.w) {v : Vnt} {h : Held}
    (e : v.held = some h) (at' : Attr) (T : RType) (hS : h.t.pointerArity < 65536) (hT : T.t.pointerArity < 65536)
    (hco : compatible (describe (h.type at')) (describe T) ≠ none) :
    (metafuncIs E v (h.type at') T = .ub ∧ NullObject E v) ∨
    (∃ b, metafuncIs E v (h.type at') T = .ok b ∧ (b = true ↔ Fits (h.type at') T ∧ (SameDecay h.u T.t ∨ UpIs E v T.t))) := by
  obtain ⟨a, st, _, _⟩ := stands_of e
  unfold metafuncIs
  rw [if_neg (by simp [e])]
  rcases compat_some _ _ hco with ⟨hf, ec⟩ | ⟨hf, ec⟩
  case inr => exact .inr ⟨false, by rw [ec]; simp [Ret.bind], by simp [hf]⟩
  rw [ec]
  simp only [Ret.bind, Bool.not_true, Bool.false_eq_true, if_false]
  by_cases hd : (h.type at').t.fullDecay = T.t.fullDecay
  · rw [if_pos hd]
    rw [type_fullDecay, fullDecay_iff] at hd
    exact .inr ⟨true, rfl, by simp [hf, hd]⟩
  · rw [if_neg hd]
    rw [type_fullDecay, fullDecay_iff] at hd
    have no : (¬UpIs E v T.t) → (false = true ↔ Fits (h.type at') T ∧ (SameDecay h.u T.t ∨ UpIs E v T.t)) := by
      intro h; simp [hd, h]
    cases et : tag T.t with
    | nope =>
      refine .inr ⟨false, rfl, no ?_⟩
      rintro ⟨b, c, x, hb, hc, hne, hdr, ⟨q, r', s', ht⟩ | ⟨q, q', r1, r2, s', ht⟩⟩
      · rw [(tag_cls _ _).2 ⟨_, ht, hc⟩] at et; cases et
      · rw [(tag_clsPtr _ _).2 ⟨hc, .inl ⟨_, _, ht⟩⟩] at et; cases et
    | cls c =>
      obtain ⟨r', ht, hc⟩ := (tag_cls _ _).1 et
      simp only
      cases hcl : (describe (h.type at')).isClass with
      | false =>
        refine .inr ⟨false, rfl, no ?_⟩
        rw [describe_isClass, type_baseType, type_isPointer] at hcl
        rintro ⟨b, c, x, hb, hc, hne, hdr, ⟨q, r', s', ht'⟩ | ⟨q, q', r1, r2, s', ht'⟩⟩
        · obtain ⟨hu, _⟩ := st.unique s'
          rw [hu] at hcl; simp [CType.baseType, hb, CType.isPointer] at hcl
        · rw [ht] at ht'; cases ht'
      | true =>
        rw [describe_isClass, type_baseType, type_isPointer] at hcl
        rw [if_pos rfl]
        rcases imp_cases r v c with ⟨hn, _, ei⟩ | ⟨_, p, b, _, ei, hder, _⟩
        · exact .inl ⟨ei, hn⟩
        · rw [ei]
          refine .inr ⟨b, rfl, hder.trans ?_⟩
          constructor
          · intro hdr
            refine ⟨hf, .inr ?_⟩
            obtain ⟨d, e', i, ⟨b', x, t', hdes, _⟩, _⟩ := id hdr
            cases hdes with
            | object q y hb s' =>
              obtain ⟨hu, _⟩ := st.unique s'
              refine ⟨b', c, x, hb, hc, ?_, hdr, .inl ⟨q, r', s', ht⟩⟩
              rintro rfl
              rw [hu, ht] at hd
              exact hd ((sameDecay_base hb).2 rfl)
            | pointer q q' y hb s' =>
              obtain ⟨hu, _⟩ := st.unique s'
              rw [hu] at hcl
              simp [CType.isPointer] at hcl
          · rintro ⟨_, g | ⟨b, c', x, _, _, _, hdr, ⟨q, r1, s', ht'⟩ | ⟨q, q', r1, r2, s', ht'⟩⟩⟩
            · exact absurd g hd
            · rw [ht] at ht'; cases ht'; exact hdr
            · rw [ht] at ht'; cases ht'
    | clsPtr c =>
      obtain ⟨hc, ht⟩ := (tag_clsPtr _ _).1 et
      simp only
      cases hcl : (describe (h.type at')).isClassPtr with
      | false =>
        refine .inr ⟨false, rfl, no ?_⟩
        rw [describe_isClassPtr, type_baseType, type_isPointer, type_arity] at hcl
        rintro ⟨b, c, x, hb, hc, hne, hdr, ⟨q, r', s', ht'⟩ | ⟨q, q', r1, r2, s', ht'⟩⟩
        · rcases ht with ⟨_, _, ht⟩ | ⟨_, _, ht⟩ <;> (rw [ht] at ht'; cases ht')
        · obtain ⟨hu, _⟩ := st.unique s'
          rw [hu] at hcl; simp [CType.baseType, hb, CType.isPointer, CType.pointerArity] at hcl
      | true =>
        rw [describe_isClassPtr, type_baseType, type_isPointer, type_arity] at hcl
        have hptr : h.u.isPointer = true := by simp_all
        have hna : h.u.isArray = false := by
          cases hu : h.u <;> rw [hu] at hptr <;> first | rfl | cases hptr
        have ht : ∃ q q', T.t = .ptr q (.base c q') := by
          rcases ht with ht | ⟨n, q, ht⟩
          · exact ht
          · exfalso
            have h1 := fits_arity hf (by rw [type_isArray]; exact hna)
            rw [type_arity, ht] at h1
            have h2 := Props.arity_pos hptr
            have h3 := u_arity h
            simp [CType.pointerArity] at h1
            omega
        obtain ⟨r1, r2, ht⟩ := ht
        rw [if_pos rfl]
        rcases imp_cases r v c with ⟨hn, _, ei⟩ | ⟨_, p, b, _, ei, hder, _⟩
        · exact .inl ⟨ei, hn⟩
        · rw [ei]
          refine .inr ⟨b, rfl, hder.trans ?_⟩
          constructor
          · intro hdr
            refine ⟨hf, .inr ?_⟩
            obtain ⟨d, e', i, ⟨b', x, t', hdes, _⟩, _⟩ := id hdr
            cases hdes with
            | object q y hb s' =>
              obtain ⟨hu, _⟩ := st.unique s'
              rw [hu] at hptr; cases hptr
            | pointer q q' y hb s' =>
              obtain ⟨hu, _⟩ := st.unique s'
              refine ⟨b', c, y, hb, hc, ?_, hdr, .inr ⟨q, q', r1, r2, s', ht⟩⟩
              rintro rfl
              rw [hu, ht] at hd
              exact hd (sameDecay_ptr.2 rfl)
          · rintro ⟨_, g | ⟨b, c', x, _, _, _, hdr, ⟨q, r1, s', ht'⟩ | ⟨q, q', r1, r2, s', ht'⟩⟩⟩
            · exact absurd g hd
            · rw [ht] at ht'; cases ht'
            · rw [ht] at ht'; cases ht'; exact hdr

theorem metafuncIs_spec {rank : TypeId → Nat} {E : Env} (r : Reachable rank E.w) {v : Vnt} {h : Held}
    (e : v.held = some h) (at' : Attr) (T : RType) (hS : Shallow h.t) (hT : Shallow T.t) :
    (metafuncIs E v (h.type at') T = .ub ∧ NullObject E v) ∨
    (∃ b, metafuncIs E v (h.type at') T = .ok b ∧ (b = true ↔ Fits (h.type at') T ∧ (SameDecay h.u T.t ∨ UpIs E v T.t))) := by
  refine metafuncIs_gen r e at' T (by unfold Shallow at hS; omega) (by unfold Shallow at hT; omega) (compat_shallow ?_ hT)
  unfold Shallow; rw [type_arity, u_arity]; exact hS

end Rtti.Val
