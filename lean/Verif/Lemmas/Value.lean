import Verif.Spec.Value
import Verif.Props.Types
import Verif.Props.Classes
set_option autoImplicit false
namespace Rtti.Val
open Rtti Spec

/-! ### types -/

theorem addConst_removeAllCv (t : CType) : (addConst t).removeAllCv = t.removeAllCv := by
  induction t <;> simp_all [addConst, CType.removeAllCv]

theorem addConst_fullDecay (t : CType) : (addConst t).fullDecay = t.fullDecay := by
  cases t with
  | base b q => simp only [addConst, CType.fullDecay, CType.decay]; split <;> rfl
  | ptr q t => rfl
  | arr n t => simp [addConst, CType.fullDecay, CType.decay, CType.removeAllCv, addConst_removeAllCv]

theorem addConst_isArray (t : CType) : (addConst t).isArray = t.isArray := by cases t <;> rfl
theorem addConst_isPointer (t : CType) : (addConst t).isPointer = t.isPointer := by cases t <;> rfl
theorem addConst_baseType (t : CType) : (addConst t).baseType = t.baseType := by
  induction t <;> simp_all [addConst, CType.baseType]
theorem addConst_arity (t : CType) : (addConst t).pointerArity = t.pointerArity := by cases t <;> rfl
theorem addConst_isConst (t : CType) : (addConst t).isConst = true := by
  induction t <;> simp_all [addConst, CType.isConst]
theorem addConst_sizeOf (t : CType) : (addConst t).sizeOf = t.sizeOf := by
  induction t <;> simp_all [addConst, CType.sizeOf]
theorem removeCv_isArray (t : CType) : t.removeCv.isArray = t.isArray := by cases t <;> rfl
theorem removeCv_isPointer (t : CType) : t.removeCv.isPointer = t.isPointer := by cases t <;> rfl
theorem removeCv_removeAllCv (t : CType) : t.removeCv.removeAllCv = t.removeAllCv := by
  induction t <;> simp_all [CType.removeCv, CType.removeAllCv]
theorem removeCv_fullDecay (t : CType) : t.removeCv.fullDecay = t.fullDecay := by
  cases t with
  | base b q => simp only [CType.removeCv, CType.fullDecay, CType.decay]; split <;> rfl
  | ptr q t => rfl
  | arr n t => simp [CType.removeCv, CType.fullDecay, CType.decay, CType.removeAllCv, removeCv_removeAllCv]
theorem removeCv_arity (t : CType) : t.removeCv.pointerArity = t.pointerArity := by cases t <;> rfl

theorem not_arr_iff (t : CType) : (∀ n e, t ≠ .arr n e) ↔ t.isArray = false := by
  cases t <;> simp [CType.isArray]

theorem arr_iff (t : CType) : (∃ n e, t = .arr n e) ↔ t.isArray = true := by
  cases t <;> simp [CType.isArray]

theorem removeAllCv_twice (t : CType) : t.removeAllCv.removeAllCv = t.removeAllCv := by
  induction t <;> simp_all [CType.removeAllCv]

theorem kept_of {t : CType} (h : t.isArray = false) : kept t = t.removeCv := by
  cases t <;> first | rfl | cases h
theorem kept_isArray (t : CType) : (kept t).isArray = t.isArray := by cases t <;> rfl
theorem kept_arity (t : CType) : (kept t).pointerArity = t.pointerArity := by cases t <;> rfl
theorem kept_fullDecay (t : CType) : (kept t).fullDecay = t.fullDecay := by
  cases t with
  | arr n e => simp [kept, CType.fullDecay, CType.decay, CType.removeAllCv, removeAllCv_twice]
  | base b q => exact removeCv_fullDecay _
  | ptr q t => rfl

theorem u_fullDecay (h : Held) : h.u.fullDecay = h.t.fullDecay := by
  unfold Held.u; split
  · rfl
  · exact kept_fullDecay _

theorem u_isArray (h : Held) : h.u.isArray = h.t.isArray := by
  unfold Held.u; split
  · rfl
  · exact kept_isArray _

theorem u_arity (h : Held) : h.u.pointerArity = h.t.pointerArity := by
  unfold Held.u; split
  · rfl
  · exact kept_arity _

/-- the type shown is `u` up to const and reference -/
theorem type_t (h : Held) (a : Attr) : (h.type a).t = h.u ∨ (h.type a).t = addConst h.u := by
  cases a <;> simp [Held.type]

theorem type_fullDecay (h : Held) (a : Attr) : (h.type a).t.fullDecay = h.u.fullDecay := by
  rcases type_t h a with e | e <;> rw [e]
  exact addConst_fullDecay _

theorem type_isArray (h : Held) (a : Attr) : (h.type a).t.isArray = h.u.isArray := by
  rcases type_t h a with e | e <;> rw [e]
  exact addConst_isArray _

theorem type_isPointer (h : Held) (a : Attr) : (h.type a).t.isPointer = h.u.isPointer := by
  rcases type_t h a with e | e <;> rw [e]
  exact addConst_isPointer _

theorem type_baseType (h : Held) (a : Attr) : (h.type a).t.baseType = h.u.baseType := by
  rcases type_t h a with e | e <;> rw [e]
  exact addConst_baseType _

theorem type_arity (h : Held) (a : Attr) : (h.type a).t.pointerArity = h.u.pointerArity := by
  rcases type_t h a with e | e <;> rw [e]
  exact addConst_arity _

theorem vtype {v : Vnt} {h : Held} (e : v.held = some h) (a : Attr) : v.type a = h.type a := by
  simp [Vnt.type, e]

theorem describe_isClassPtr (T : RType) : (describe T).isClassPtr =
    (decide (T.t.pointerArity % 65536 = 1) && decide (T.t.baseType.kind = .cls) && T.t.isPointer) := by
  unfold Desc.isClassPtr
  rw [describe_hasClass, show (describe T).has Flag.Pointer = (describe T).isPointer from rfl, describe_isPointer]
  rfl

theorem tag_cls (t : CType) (b : Base) : tag t = .cls b ↔ ∃ q, t = .base b q ∧ b.kind = .cls := by
  unfold tag
  cases t with
  | base b' q =>
    by_cases hf : b'.kind = .func
    · simp [CType.fullDecay, CType.decay, hf, CType.removeAllCv]
      rintro rfl; simp [hf]
    · simp only [CType.fullDecay, CType.decay, hf, if_false, CType.removeAllCv]
      by_cases hc : b'.kind = .cls
      · simp only [hc, if_true, Tag.cls.injEq, CType.base.injEq]
        constructor
        · rintro rfl; exact ⟨q, ⟨rfl, rfl⟩, hc⟩
        · rintro ⟨_, ⟨rfl, _⟩, _⟩; rfl
      · simp only [hc, if_false, reduceCtorEq, CType.base.injEq, false_iff]
        rintro ⟨_, ⟨rfl, _⟩, h⟩; exact hc h
  | ptr q t =>
    simp only [CType.fullDecay, CType.decay, CType.removeAllCv]
    cases t <;> simp [CType.removeAllCv] <;> split <;> simp
  | arr n t =>
    simp only [CType.fullDecay, CType.decay, CType.removeAllCv]
    cases t <;> simp [CType.removeAllCv] <;> split <;> simp

theorem tag_clsPtr (t : CType) (b : Base) : tag t = .clsPtr b ↔
    b.kind = .cls ∧ ((∃ q q', t = .ptr q (.base b q')) ∨ ∃ n q, t = .arr n (.base b q)) := by
  unfold tag
  cases t with
  | base b' q =>
    by_cases hf : b'.kind = .func
    · simp [CType.fullDecay, CType.decay, hf, CType.removeAllCv]
    · simp only [CType.fullDecay, CType.decay, hf, if_false, CType.removeAllCv]
      split <;> simp
  | ptr q t =>
    simp only [CType.fullDecay, CType.decay, CType.removeAllCv]
    cases t with
    | base b' q' =>
      simp only [CType.removeAllCv]
      by_cases hc : b'.kind = .cls
      · simp only [hc, if_true, Tag.clsPtr.injEq]
        constructor
        · rintro rfl; exact ⟨hc, .inl ⟨_, _, rfl⟩⟩
        · rintro ⟨_, ⟨_, _, e⟩ | ⟨_, _, e⟩⟩ <;> cases e; rfl
      · simp only [hc, if_false, reduceCtorEq, false_iff]
        rintro ⟨h, ⟨_, _, e⟩ | ⟨_, _, e⟩⟩ <;> cases e; exact hc h
    | ptr => simp [CType.removeAllCv]
    | arr => simp [CType.removeAllCv]
  | arr n t =>
    simp only [CType.fullDecay, CType.decay, CType.removeAllCv]
    cases t with
    | base b' q' =>
      simp only [CType.removeAllCv]
      by_cases hc : b'.kind = .cls
      · simp only [hc, if_true, Tag.clsPtr.injEq]
        constructor
        · rintro rfl; exact ⟨hc, .inr ⟨_, _, rfl⟩⟩
        · rintro ⟨_, ⟨_, _, e⟩ | ⟨_, _, e⟩⟩ <;> cases e; rfl
      · simp only [hc, if_false, reduceCtorEq, false_iff]
        rintro ⟨h, ⟨_, _, e⟩ | ⟨_, _, e⟩⟩ <;> cases e; exact hc h
    | ptr => simp [CType.removeAllCv]
    | arr => simp [CType.removeAllCv]

theorem tag_congr {s t : CType} (h : s.fullDecay = t.fullDecay) : tag s = tag t := by unfold tag; rw [h]

/-! ### the object of a variant -/

theorem stands_of {v : Vnt} {h : Held} (e : v.held = some h) :
    ∃ a, Stands v h.u a ∧ (h.u.isArray = false → v.access = a) ∧ (h.u.isArray = true → v.access = v.self ∧ a = v.ptr) := by
  obtain ⟨w, t⟩ := h
  cases w with
  | true =>
    refine ⟨v.ptr, .ref t e, ?_, ?_⟩
    · intro ha
      have : t.isArray = false := ha
      simp [Vnt.access, e, this, Held.inPlace]
    · intro ha
      have : t.isArray = true := ha
      simp [Vnt.access, e, this]
  | false =>
    have hu : (Held.mk false t).u = kept t := rfl
    rw [hu, kept_isArray]
    cases ha : t.isArray with
    | false =>
      have hn := (not_arr_iff t).2 ha
      rw [kept_of ha]
      by_cases hs : t.sizeOf ≤ 16
      · exact ⟨v.self, .inPlace t e hn hs, by simp [Vnt.access, e, Held.inPlace, ha, hs], by simp⟩
      · exact ⟨v.ptr, .heap t e hn (by omega), by simp [Vnt.access, e, Held.inPlace, ha, hs], by simp⟩
    | true =>
      obtain ⟨n, el, rfl⟩ := (arr_iff t).2 ha
      exact ⟨v.ptr, .array n el e, by simp, by simp [Vnt.access, e, ha]⟩

theorem Stands.held {v : Vnt} {t : CType} {a : Addr} (s : Stands v t a) : ∃ h, v.held = some h ∧ t = h.u := by
  cases s with
  | inPlace t e hn _ => exact ⟨_, e, (kept_of ((not_arr_iff t).1 hn)).symm⟩
  | heap t e hn _ => exact ⟨_, e, (kept_of ((not_arr_iff t).1 hn)).symm⟩
  | array n el e => exact ⟨_, e, rfl⟩
  | ref t e => exact ⟨_, e, rfl⟩

theorem Stands.unique {v : Vnt} {t t' : CType} {a a' : Addr} (s : Stands v t a) (s' : Stands v t' a') : t = t' ∧ a = a' := by
  cases s <;> cases s' <;> rename_i h1 h2 <;> simp_all
  all_goals first
    | omega
    | grind

theorem Stands.access {v : Vnt} {t : CType} {a : Addr} (s : Stands v t a) :
    (t.isArray = false → v.access = a) ∧ (t.isArray = true → v.access = v.self ∧ a = v.ptr) := by
  obtain ⟨h, e, rfl⟩ := s.held
  obtain ⟨a', s', h1, h2⟩ := stands_of e
  obtain ⟨_, rfl⟩ := s.unique s'
  exact ⟨h1, h2⟩

/-! ### classes -/

theorem Designates.unique {E : Env} {v : Vnt} {b b' : Base} {x x' : Addr} (d : Designates E v b x) (d' : Designates E v b' x') :
    b = b' ∧ x = x' := by
  cases d with
  | object q _ h s =>
    cases d' with
    | object q' _ h' s' => obtain ⟨e, rfl⟩ := s.unique s'; cases e; exact ⟨rfl, rfl⟩
    | pointer q' q'' a h' s' => obtain ⟨e, _⟩ := s.unique s'; cases e
  | pointer q q1 a h s =>
    cases d' with
    | object q' _ h' s' => obtain ⟨e, _⟩ := s.unique s'; cases e
    | pointer q' q'' a' h' s' => obtain ⟨e, rfl⟩ := s.unique s'; cases e; exact ⟨rfl, rfl⟩

theorem classInfo_cases (E : Env) (v : Vnt) :
    (∃ b x, Designates E v b x ∧ classInfo E v = objectInfo E b x) ∨
    ((∀ b x, ¬Designates E v b x) ∧ classInfo E v = .ok (0, 0)) := by
  unfold classInfo
  cases e : v.held with
  | none =>
    refine .inr ⟨fun b x d => ?_, rfl⟩
    cases d with
    | object q _ h s => obtain ⟨_, e', _⟩ := s.held; rw [e] at e'; cases e'
    | pointer q q' a h s => obtain ⟨_, e', _⟩ := s.held; rw [e] at e'; cases e'
  | some h =>
    obtain ⟨a, s, h1, h2⟩ := stands_of e
    have hu := tag_congr (u_fullDecay h)
    simp only
    split
    · rename_i ha
      rw [← u_isArray] at ha
      refine .inr ⟨fun b x d => ?_, rfl⟩
      cases d with
      | object q _ _ s' => obtain ⟨e', _⟩ := s.unique s'; rw [e'] at ha; cases ha
      | pointer q q' a _ s' => obtain ⟨e', _⟩ := s.unique s'; rw [e'] at ha; cases ha
    · rename_i ha
      rw [← u_isArray] at ha
      have ha : h.u.isArray = false := by simpa using ha
      rw [← hu]
      cases et : tag h.u with
      | nope =>
        refine .inr ⟨fun b x d => ?_, rfl⟩
        cases d with
        | object q _ hb s' =>
          obtain ⟨e', _⟩ := s.unique s'
          rw [(tag_cls _ _).2 ⟨_, e', hb⟩] at et; cases et
        | pointer q q' a hb s' =>
          obtain ⟨e', _⟩ := s.unique s'
          rw [(tag_clsPtr _ _).2 ⟨hb, .inl ⟨_, _, e'⟩⟩] at et; cases et
      | cls b =>
        obtain ⟨q, eu, hb⟩ := (tag_cls _ _).1 et
        rw [h1 ha]
        rw [eu] at s
        exact .inl ⟨b, a, .object b q a hb s, rfl⟩
      | clsPtr b =>
        obtain ⟨hb, ⟨q, q', eu⟩ | ⟨n, q, eu⟩⟩ := (tag_clsPtr _ _).1 et
        · rw [h1 ha]
          rw [eu] at s
          exact .inl ⟨b, E.load a, .pointer b q q' a hb s, rfl⟩
        · rw [eu] at ha; cases ha

theorem Classes.unique {E : Env} {v : Vnt} {c : Base} {d d' e e' : Ptr} {i i' : Addr} (h : Classes E v c d e i)
    (h' : Classes E v c d' e' i') : d = d' ∧ e = e' ∧ i = i' := by
  obtain ⟨b, x, t, h1, h2, h3, h4⟩ := h
  obtain ⟨b', x', t', g1, g2, g3, g4⟩ := h'
  obtain ⟨rfl, rfl⟩ := h1.unique g1
  rw [h4] at g4; cases g4
  unfold Complete at h2 g2
  have : t = t' ∧ i = i' := by split at h2 <;> simp_all <;> (rw [← h2] at g2; cases g2; exact ⟨rfl, rfl⟩)
  obtain ⟨rfl, rfl⟩ := this
  rw [h3] at g3; cases g3
  exact ⟨rfl, rfl, rfl⟩

theorem Subobject.unique {rank : TypeId → Nat} {E : Env} (r : Reachable rank E.w) {v : Vnt} {c : Base} {a a' : Addr} (h : Subobject E v c a)
    (h' : Subobject E v c a') : a = a' := by
  obtain ⟨d, e, i, fs, h1, h2, rfl⟩ := h
  obtain ⟨d', e', i', fs', g1, g2, rfl⟩ := h'
  obtain ⟨rfl, rfl, rfl⟩ := h1.unique g1
  rw [World.LeftPath.unique (World.Inv.reachable r) h2 g2]

/-- both implementations of the class cast -/
theorem imp_cases {rank : TypeId → Nat} {E : Env} (r : Reachable rank E.w) (v : Vnt) (c : Base) :
    (NullObject E v ∧ castImp E v c = .ub ∧ isImp E v c = .ub) ∨
    (¬NullObject E v ∧ ∃ a b, castImp E v c = .ok a ∧ isImp E v c = .ok b ∧ (b = true ↔ Derives E v c) ∧
      (∀ x, x ≠ 0 → (a = x ↔ Subobject E v c x)) ∧ (a ≠ 0 → b = true)) := by
  have inv := World.Inv.reachable r
  rcases classInfo_cases E v with ⟨b, x, hd, e⟩ | ⟨hd, e⟩
  · by_cases hn : x = 0 ∧ E.info b = true
    · obtain ⟨rfl, hi⟩ := hn
      refine .inl ⟨⟨b, hd, hi⟩, ?_⟩
      simp [castImp, isImp, e, objectInfo, hi, Ret.bind]
    · have hnn : ¬NullObject E v := by
        rintro ⟨b', hd', hi'⟩
        obtain ⟨rfl, rfl⟩ := hd.unique hd'
        exact hn ⟨rfl, hi'⟩
      refine .inr ⟨hnn, ?_⟩
      obtain ⟨t, i, ei, hc⟩ : ∃ t i, classInfo E v = .ok (t, i) ∧ Complete E b x t i := by
        rw [e]
        unfold objectInfo Complete
        cases hi : E.info b with
        | false => exact ⟨_, _, rfl, by simp⟩
        | true =>
          have : x ≠ 0 := fun h => hn ⟨h, hi⟩
          exact ⟨(E.dyn b x).1, (E.dyn b x).2, by simp [this], by simp⟩
      have hcl : ∀ d e' i', Classes E v c d e' i' ↔ (E.w.find t = some d ∧ E.w.find (E.tid c) = some e' ∧ i' = i) := by
        intro d e' i'
        constructor
        · rintro ⟨b', x', t', h1, h2, h3, h4⟩
          obtain ⟨rfl, rfl⟩ := hd.unique h1
          have : t' = t ∧ i' = i := by
            unfold Complete at h2 hc
            split at h2 <;> simp_all <;> (rw [← hc] at h2; cases h2; exact ⟨rfl, rfl⟩)
          obtain ⟨rfl, rfl⟩ := this
          exact ⟨h3, h4, rfl⟩
        · rintro ⟨h3, h4, rfl⟩
          exact ⟨b, x, t, hd, hc, h3, h4⟩
      unfold castImp isImp
      rw [ei]
      simp only [Ret.bind]
      by_cases hv : E.w.valid t = true
      · simp only [hv, Bool.not_true, Bool.false_eq_true, if_false]
        cases hf : E.w.find t with
        | none =>
          refine ⟨0, false, rfl, rfl, by simp [Derives, hcl, hf], fun x hx => ?_, by simp⟩
          simp [Subobject, hcl, hf, hx.symm]
        | some f =>
          cases hg : E.w.find (E.tid c) with
          | none =>
            refine ⟨0, false, rfl, rfl, by simp [Derives, hcl, hg], fun x hx => ?_, by simp⟩
            simp [Subobject, hcl, hg, hx.symm]
          | some g =>
            have hk := (inv.find_cls hf).1
            obtain ⟨h1, h2, -, -⟩ := Props.C27_upcast r hk g i
            rcases Props.C25_inheritedFrom_iff_reaches r hk g with ⟨h3, h4⟩ | ⟨h3, h4⟩
            · obtain ⟨fs, l1, l2, l3, l4⟩ := h1 h4
              refine ⟨applyCasts fs i, true, by simp [l4, Ret.lift], by simp [h3, Ret.lift], ?_, fun x hx => ?_, by simp⟩
              · simp only [Derives, hcl, true_iff]
                exact ⟨f, g, i, ⟨hf, hg, rfl⟩, h4⟩
              · constructor
                · rintro rfl; exact ⟨f, g, i, fs, (hcl _ _ _).2 ⟨hf, hg, rfl⟩, l1, rfl⟩
                · rintro ⟨d, e', i', gs, k1, k2, rfl⟩
                  obtain ⟨m1, m2, rfl⟩ := (hcl _ _ _).1 k1
                  rw [hf] at m1; cases m1; rw [hg] at m2; cases m2
                  rw [l3 gs k2]
            · refine ⟨0, false, by simp [h2 h4, Ret.lift], by simp [h3, Ret.lift], ?_, fun x hx => ?_, by simp⟩
              · simp only [Bool.false_eq_true, false_iff]
                rintro ⟨d, e', i', k1, k2⟩
                obtain ⟨m1, m2, rfl⟩ := (hcl _ _ _).1 k1
                rw [hf] at m1; cases m1; rw [hg] at m2; cases m2
                exact h4 k2
              · constructor
                · intro h; exact absurd h.symm hx
                · rintro ⟨d, e', i', gs, k1, k2, rfl⟩
                  obtain ⟨m1, m2, rfl⟩ := (hcl _ _ _).1 k1
                  rw [hf] at m1; cases m1; rw [hg] at m2; cases m2
                  exact absurd (World.LeftPath.reaches inv k2) h4
      · have hv : E.w.valid t = false := by simpa using hv
        have hf : E.w.find t = none := by simp [World.find, hv]
        simp only [hv, Bool.not_false, if_true]
        refine ⟨0, false, rfl, rfl, by simp [Derives, hcl, hf], fun x hx => ?_, by simp⟩
        simp [Subobject, hcl, hf, hx.symm]
  · have hnn : ¬NullObject E v := fun ⟨b, h, _⟩ => hd b 0 h
    refine .inr ⟨hnn, 0, false, ?_, ?_, ?_, ?_, by simp⟩
    · simp [castImp, e, Ret.bind, inv.valid0]
    · simp [isImp, e, Ret.bind, inv.valid0]
    · simp only [Bool.false_eq_true, false_iff]
      rintro ⟨_, _, _, ⟨b, x, _, h, _⟩, _⟩
      exact hd b x h
    · intro x hx
      constructor
      · intro h; exact absurd h.symm hx
      · rintro ⟨_, _, _, _, ⟨b, x, _, h, _⟩, _⟩
        exact absurd h (hd b x)

end Rtti.Val
