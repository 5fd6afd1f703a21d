import Verif.Lemmas.ValueTo
/-! when looking into a variant is undefined, or terminates the process -/
set_option autoImplicit false
namespace Rtti.Val
open Rtti Spec

/-- `T` is a pointer to a class -/
def ToClassPtr (T : RType) : Prop := ∃ q c r, T.t = .ptr q (.base c r) ∧ c.kind = .cls

theorem nullObject_ptr {E : Env} {v : Vnt} (sd : Sound E v) {h : Held} (e : v.held = some h) (hn : NullObject E v) :
    ∃ q b q', h.u = .ptr q (.base b q') ∧ b.kind = .cls := by
  obtain ⟨b, hd, _⟩ := hn
  generalize hx : (0 : Addr) = x at hd
  cases hd with
  | object q a hb s => subst hx; exact absurd rfl (sd.object _ _ s)
  | pointer q q' a hb s =>
    obtain ⟨h', e', hu⟩ := s.held
    rw [e] at e'; cases e'
    exact ⟨q, b, q', hu.symm, hb⟩

variable {rank : TypeId → Nat} {E : Env} (r : Reachable rank E.w) {v : Vnt} (sd : Sound E v) {h : Held} (e : v.held = some h) (at' : Attr) (T : RType)

include sd e in
theorem nullObject_shape (hn : NullObject E v) : (describe (h.type at')).isClass = false ∧ (describe (h.type at')).isClassPtr = true := by
  obtain ⟨q, b, q', hu, hb⟩ := nullObject_ptr sd e hn
  rw [describe_isClass, describe_isClassPtr, type_baseType, type_isPointer, type_arity, hu]
  simp [CType.isPointer, CType.pointerArity, CType.baseType, hb]

include sd e in
theorem toClassPtr_of {c : Base} (hf : Fits (h.type at') T) (et : tag T.t = .clsPtr c) (hn : NullObject E v) : ToClassPtr T := by
  obtain ⟨hc, ⟨q, q', ht⟩ | ⟨n, q, ht⟩⟩ := (tag_clsPtr _ _).1 et
  · exact ⟨q, c, q', ht, hc⟩
  · obtain ⟨q, b, q', hu, hb⟩ := nullObject_ptr sd e hn
    have := fits_arity hf (by rw [type_isArray, hu]; rfl)
    rw [type_arity, hu, ht] at this
    simp [CType.pointerArity] at this

theorem tag_of_toClassPtr {T : RType} (h : ToClassPtr T) : ∃ c, tag T.t = .clsPtr c := by
  obtain ⟨q, c, r, ht, hc⟩ := h
  exact ⟨c, (tag_clsPtr _ _).2 ⟨hc, .inl ⟨_, _, ht⟩⟩⟩

/-- the look-up needs the class of an object that is not there -/
def Blind (E : Env) (v : Vnt) (S T : RType) : Prop := NullObject E v ∧ Fits S T ∧ ¬SameDecay S.t T.t ∧ ToClassPtr T

include r in
theorem castImp_ub (c : Base) : castImp E v c = .ub ↔ NullObject E v := by
  rcases imp_cases r v c with ⟨hn, ei, _⟩ | ⟨hn, p, b, ei, _⟩
  · exact ⟨fun _ => hn, fun _ => ei⟩
  · rw [ei]; exact ⟨nofun, fun h => absurd h hn⟩

include r in
theorem castImp_ok (c : Base) : castImp E v c = .ub ∨ ∃ a, castImp E v c = .ok a := by
  rcases imp_cases r v c with ⟨hn, ei, _⟩ | ⟨hn, p, b, ei, _⟩
  · exact .inl ei
  · exact .inr ⟨p, ei⟩

include r in
theorem isImp_ub (c : Base) : isImp E v c = .ub ↔ NullObject E v := by
  rcases imp_cases r v c with ⟨hn, _, ei⟩ | ⟨hn, p, b, _, ei, _⟩
  · exact ⟨fun _ => hn, fun _ => ei⟩
  · rw [ei]; exact ⟨nofun, fun h => absurd h hn⟩

include r in
theorem isImp_ok (c : Base) : isImp E v c = .ub ∨ ∃ a, isImp E v c = .ok a := by
  rcases imp_cases r v c with ⟨hn, _, ei⟩ | ⟨hn, p, b, _, ei, _⟩
  · exact .inl ei
  · exact .inr ⟨b, ei⟩

include r sd e in
theorem metafuncCast_edge :
    (metafuncCast E v (h.type at') T = .ub ↔ Blind E v (h.type at') T) ∧
    (metafuncCast E v (h.type at') T = .terminate ↔ compatible (describe (h.type at')) (describe T) = none) ∧
    metafuncCast E v (h.type at') T ≠ .diverge := by
  unfold metafuncCast
  rw [if_neg (by simp [e])]
  unfold compat
  cases ec : compatible (describe (h.type at')) (describe T) with
  | none => exact ⟨⟨nofun, fun b => by rw [Blind, Fits, ec] at b; exact nomatch b.2.1⟩, by simp [Ret.bind], nofun⟩
  | some b =>
  cases b with
  | false => exact ⟨⟨nofun, fun b => by rw [Blind, Fits, ec] at b; exact nomatch b.2.1⟩, by simp [Ret.bind], nofun⟩
  | true =>
  simp only [Ret.bind, Bool.not_true, Bool.false_eq_true, if_false, reduceCtorEq, iff_false]
  by_cases hd : (h.type at').t.fullDecay = T.t.fullDecay
  · rw [if_pos hd]
    refine ⟨⟨?_, fun b => absurd ((fullDecay_iff _ _).1 hd) b.2.2.1⟩, ?_, ?_⟩ <;> dsimp only <;> split <;> (try split) <;> nofun
  rw [if_neg hd]
  have hd' : ¬SameDecay (h.type at').t T.t := fun x => hd ((fullDecay_iff _ _).2 x)
  have tail : ∀ x : Ret Addr, (x = .ub ∨ (∃ a, x = .ok a) ∨ x = .throw .badVariantCast) →
      let y : Ret Addr := x.bind fun result =>
        if result = 0 then .throw .badVariantCast else if T.t.isArray then .ok (E.load result) else .ok result
      (y = .ub ↔ x = .ub) ∧ ¬ y = .terminate ∧ y ≠ .diverge := by
    rintro x (rfl | ⟨a, rfl⟩ | rfl)
    · exact ⟨⟨fun _ => rfl, fun _ => rfl⟩, nofun, nofun⟩
    · dsimp only [Ret.bind]; split <;> (try split) <;> exact ⟨⟨nofun, nofun⟩, nofun, nofun⟩
    · exact ⟨⟨nofun, nofun⟩, nofun, nofun⟩
  have shape : castTo E v (h.type at') T = .ub ∨ (∃ a, castTo E v (h.type at') T = .ok a) ∨ castTo E v (h.type at') T = .throw .badVariantCast := by
    unfold castTo
    cases tag T.t with
    | nope => exact .inr (.inl ⟨0, rfl⟩)
    | cls c =>
      dsimp only
      split
      · rcases castImp_ok r (v := v) c with h | h
        · exact .inl h
        · exact .inr (.inl h)
      · exact .inr (.inl ⟨0, rfl⟩)
    | clsPtr c =>
      dsimp only
      split
      · rcases castImp_ok r (v := v) c with h | ⟨a, h⟩
        · rw [h]; exact .inl rfl
        · rw [h]; simp only [Ret.bind]
          split
          · exact .inr (.inl ⟨_, rfl⟩)
          · split
            · exact .inr (.inl ⟨_, rfl⟩)
            · exact .inr (.inr rfl)
      · exact .inr (.inl ⟨0, rfl⟩)
  have hub : castTo E v (h.type at') T = .ub ↔ Blind E v (h.type at') T := by
    constructor
    · intro hx
      unfold castTo at hx
      cases et : tag T.t with
      | nope => rw [et] at hx; cases hx
      | cls c =>
        rw [et] at hx
        dsimp only at hx
        split at hx
        · next hc =>
          have hn := (castImp_ub r c).1 hx
          rw [(nullObject_shape sd e at' hn).1] at hc; cases hc
        · cases hx
      | clsPtr c =>
        rw [et] at hx
        dsimp only at hx
        split at hx
        · have hn : NullObject E v := by
            rcases castImp_ok r (v := v) c with h | ⟨a, h⟩
            · exact (castImp_ub r c).1 h
            · rw [h] at hx; simp only [Ret.bind] at hx
              split at hx
              · cases hx
              · split at hx <;> cases hx
          exact ⟨hn, ec, hd', toClassPtr_of sd e at' T ec et hn⟩
        · cases hx
    · rintro ⟨hn, _, _, ht⟩
      obtain ⟨c, et⟩ := tag_of_toClassPtr ht
      unfold castTo
      rw [et]
      simp only [(nullObject_shape sd e at' hn).2, if_true, (castImp_ub r c).2 hn, Ret.bind]
  obtain ⟨t1, t2, t3⟩ := tail _ shape
  simp only [Ret.bind] at t1 t2 t3
  exact ⟨t1.trans hub, t2, t3⟩

include r sd e in
theorem metafuncIs_edge :
    (metafuncIs E v (h.type at') T = .ub ↔ Blind E v (h.type at') T) ∧
    (metafuncIs E v (h.type at') T = .terminate ↔ compatible (describe (h.type at')) (describe T) = none) ∧
    (∀ x, metafuncIs E v (h.type at') T ≠ .throw x) ∧ metafuncIs E v (h.type at') T ≠ .diverge := by
  unfold metafuncIs
  rw [if_neg (by simp [e])]
  unfold compat
  cases ec : compatible (describe (h.type at')) (describe T) with
  | none => exact ⟨⟨nofun, fun b => by rw [Blind, Fits, ec] at b; exact nomatch b.2.1⟩, by simp [Ret.bind], nofun, nofun⟩
  | some b =>
  cases b with
  | false => exact ⟨⟨nofun, fun b => by rw [Blind, Fits, ec] at b; exact nomatch b.2.1⟩, by simp [Ret.bind], nofun, nofun⟩
  | true =>
  simp only [Ret.bind, Bool.not_true, Bool.false_eq_true, if_false, reduceCtorEq, iff_false]
  by_cases hd : (h.type at').t.fullDecay = T.t.fullDecay
  · rw [if_pos hd]
    exact ⟨⟨nofun, fun b => absurd ((fullDecay_iff _ _).1 hd) b.2.2.1⟩, nofun, nofun, nofun⟩
  rw [if_neg hd]
  have hd' : ¬SameDecay (h.type at').t T.t := fun x => hd ((fullDecay_iff _ _).2 x)
  cases et : tag T.t with
  | nope => exact ⟨⟨nofun, fun b => by obtain ⟨c, h⟩ := tag_of_toClassPtr b.2.2.2; rw [et] at h; cases h⟩, nofun, nofun, nofun⟩
  | cls c =>
    have nb : ¬ Blind E v (h.type at') T := fun b => by obtain ⟨c, h⟩ := tag_of_toClassPtr b.2.2.2; rw [et] at h; cases h
    dsimp only
    split
    · next hc =>
      rcases isImp_ok r (v := v) c with h | ⟨a, h⟩
      · have hn := (isImp_ub r c).1 h
        rw [(nullObject_shape sd e at' hn).1] at hc; cases hc
      · rw [h]; exact ⟨⟨nofun, fun b => absurd b nb⟩, nofun, nofun, nofun⟩
    · exact ⟨⟨nofun, fun b => absurd b nb⟩, nofun, nofun, nofun⟩
  | clsPtr c =>
    dsimp only
    split
    · rcases isImp_ok r (v := v) c with h | ⟨a, h⟩
      · have hn := (isImp_ub r c).1 h
        rw [h]
        exact ⟨⟨fun _ => ⟨hn, ec, hd', toClassPtr_of sd e at' T ec et hn⟩, fun _ => rfl⟩, nofun, nofun, nofun⟩
      · rw [h]
        refine ⟨⟨nofun, fun b => ?_⟩, nofun, nofun, nofun⟩
        rw [(isImp_ub r c).2 b.1] at h; cases h
    · next hc =>
      refine ⟨⟨nofun, fun b => ?_⟩, nofun, nofun, nofun⟩
      rw [(nullObject_shape sd e at' b.1).2] at hc; exact absurd rfl hc

theorem convert_no_ub (E : Env) (a : Addr) (s t : CType) :
    (convert E a s t ≠ .ub ∧ convert E a s t ≠ .terminate) ∧ convert E a s t ≠ .diverge := by
  unfold convert
  split
  · exact ⟨⟨nofun, nofun⟩, nofun⟩
  · split <;> exact ⟨⟨nofun, nofun⟩, nofun⟩

theorem copyConstruct_no_ub (E : Env) (t : CType) (a : Addr) :
    (copyConstruct E t a ≠ .ub ∧ copyConstruct E t a ≠ .terminate) ∧ copyConstruct E t a ≠ .diverge := by
  unfold copyConstruct
  split
  · split <;> exact ⟨⟨nofun, nofun⟩, nofun⟩
  · exact ⟨⟨nofun, nofun⟩, nofun⟩

include r sd e in
theorem metafuncTo_edge (t : CType) :
    (metafuncTo E v (h.type at') t = .ub ↔ Blind E v (h.type at') ⟨.none, t⟩) ∧
    (metafuncTo E v (h.type at') t = .terminate ↔ compatible (describe (h.type at')) (describe ⟨.none, t⟩) = none) ∧
    metafuncTo E v (h.type at') t ≠ .diverge := by
  -- the rest of the function after the look-up of the base class
  have rest : ∀ (x : Ret (Option Made)), (x = .ub ∨ (∃ a, x = .ok a) ∨ ∃ ex, x = .throw ex) →
      let y := x.bind fun r => match r with
        | some m => .ok m
        | none => (convert E v.access (h.type at').t t).bind fun r => match r with
          | some m => .ok m
          | none => (.throw .badVariantConvert : Ret Made)
      (y = .ub ↔ x = .ub) ∧ ¬ y = .terminate ∧ y ≠ .diverge := by
    have hc := convert_no_ub E v.access (h.type at').t t
    rintro x (rfl | ⟨a, rfl⟩ | ⟨ex, rfl⟩)
    · exact ⟨⟨fun _ => rfl, fun _ => rfl⟩, nofun, nofun⟩
    · cases a with
      | some m => exact ⟨⟨nofun, nofun⟩, nofun, nofun⟩
      | none =>
        simp only [Ret.bind]
        revert hc
        cases convert E v.access (h.type at').t t with
        | ok o => cases o <;> exact fun _ => ⟨⟨nofun, nofun⟩, nofun, nofun⟩
        | throw ex => exact fun _ => ⟨⟨nofun, nofun⟩, nofun, nofun⟩
        | terminate => exact fun hc => absurd rfl hc.1.2
        | ub => exact fun hc => absurd rfl hc.1.1
        | diverge => exact fun hc => absurd rfl hc.2
    · exact ⟨⟨nofun, nofun⟩, nofun, nofun⟩
  unfold metafuncTo
  rw [if_neg (by simp [e])]
  unfold compat
  cases ec : compatible (describe (h.type at')) (describe ⟨.none, t⟩) with
  | none => exact ⟨⟨nofun, fun b => by rw [Blind, Fits, ec] at b; exact nomatch b.2.1⟩, by simp [Ret.bind], nofun⟩
  | some b =>
  cases b with
  | false =>
    obtain ⟨t1, t2, t3⟩ := rest (.ok none) (.inr (.inl ⟨_, rfl⟩))
    simp only [Ret.bind, Bool.false_and, Bool.false_eq_true, if_false] at t1 t2 t3 ⊢
    exact ⟨t1.trans ⟨nofun, fun b => by rw [Blind, Fits, ec] at b; exact nomatch b.2.1⟩, ⟨fun h => absurd h t2, nofun⟩, t3⟩
  | true =>
  by_cases hd : (h.type at').t.fullDecay = t.fullDecay
  · have := copyConstruct_no_ub E t v.access
    simp only [Ret.bind, Bool.true_and, hd, decide_true, if_true]
    exact ⟨⟨fun h => absurd h this.1.1, fun b => absurd ((fullDecay_iff _ _).1 hd) b.2.2.1⟩, ⟨fun h => absurd h this.1.2, nofun⟩, this.2⟩
  have hd' : ¬SameDecay (h.type at').t t := fun x => hd ((fullDecay_iff _ _).2 x)
  have shape : toCast E v (h.type at') t = .ub ∨ (∃ a, toCast E v (h.type at') t = .ok a) ∨ ∃ ex, toCast E v (h.type at') t = .throw ex := by
    unfold toCast
    cases tag t with
    | nope => exact .inr (.inl ⟨_, rfl⟩)
    | cls c =>
      dsimp only
      split
      · rcases castImp_ok r (v := v) c with h | ⟨p, h⟩
        · rw [h]; exact .inl rfl
        · rw [h]; simp only [Ret.bind]
          split
          · exact .inr (.inl ⟨_, rfl⟩)
          · have := copyConstruct_no_ub E t p
            revert this
            cases copyConstruct E t p with
            | ok m => exact fun _ => .inr (.inl ⟨_, rfl⟩)
            | throw ex => exact fun _ => .inr (.inr ⟨_, rfl⟩)
            | terminate => exact fun h => absurd rfl h.1.2
            | ub => exact fun h => absurd rfl h.1.1
            | diverge => exact fun h => absurd rfl h.2
      · exact .inr (.inl ⟨_, rfl⟩)
    | clsPtr c =>
      dsimp only
      split
      · rcases castImp_ok r (v := v) c with h | ⟨p, h⟩
        · rw [h]; exact .inl rfl
        · rw [h]; simp only [Ret.bind]
          split <;> exact .inr (.inl ⟨_, rfl⟩)
      · exact .inr (.inl ⟨_, rfl⟩)
  have hub : toCast E v (h.type at') t = .ub ↔ Blind E v (h.type at') ⟨.none, t⟩ := by
    constructor
    · intro hx
      unfold toCast at hx
      cases et : tag t with
      | nope => rw [et] at hx; cases hx
      | cls c =>
        rw [et] at hx
        dsimp only at hx
        split at hx
        · next hc =>
          rcases castImp_ok r (v := v) c with h | ⟨p, h⟩
          · have hn := (castImp_ub r c).1 h
            rw [(nullObject_shape sd e at' hn).1] at hc; cases hc
          · rw [h] at hx; simp only [Ret.bind] at hx
            split at hx
            · cases hx
            · have := copyConstruct_no_ub E t p
              revert this hx
              cases copyConstruct E t p with
              | ok m => exact nofun
              | throw ex => exact nofun
              | terminate => exact nofun
              | ub => exact fun _ h => absurd rfl h.1.1
              | diverge => exact nofun
        · cases hx
      | clsPtr c =>
        rw [et] at hx
        dsimp only at hx
        split at hx
        · have hn : NullObject E v := by
            rcases castImp_ok r (v := v) c with h | ⟨a, h⟩
            · exact (castImp_ub r c).1 h
            · rw [h] at hx; simp only [Ret.bind] at hx
              split at hx <;> cases hx
          exact ⟨hn, ec, hd', toClassPtr_of sd e at' ⟨.none, t⟩ ec et hn⟩
        · cases hx
    · rintro ⟨hn, _, _, ht⟩
      obtain ⟨c, et⟩ := tag_of_toClassPtr ht
      unfold toCast
      rw [et]
      simp only [(nullObject_shape sd e at' hn).2, if_true, (castImp_ub r c).2 hn, Ret.bind]
  obtain ⟨t1, t2, t3⟩ := rest _ shape
  simp only [Ret.bind, Bool.true_and, hd, decide_false, Bool.false_eq_true, if_false, if_true] at t1 t2 t3 ⊢
  exact ⟨t1.trans hub, ⟨fun h => absurd h t2, nofun⟩, t3⟩

end Rtti.Val
