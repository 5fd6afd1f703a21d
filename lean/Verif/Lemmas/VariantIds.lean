import Verif.Lemmas.ClassFind
import Verif.Model.VariantIds
/-
Looking into a variant through ids is looking at types (`Props/VariantIds.lean`).
-/
set_option autoImplicit false
namespace Rtti.ClassFind
open Rtti.Val (Vnt Ret Conv Made Env Tag Held Access Attr tag)

variable {nm : RType → Str}

/-- the type is registered, with its own description and the id of its decayed type -/
structure Knows (nm : RType → Str) (s : Prog) (T : RType) (x : Info) : Prop where
  pos : s.idNow nm T ≠ 0
  info : s.reg.info (s.idNow nm T) = some x
  desc : x.desc = describe T
  dec : s.reg.holders (Reg.decT T) = some x.decay

theorem Knows.good {s : Prog} {S : RType} {x : Info} (a : Knows nm s S x) : s.reg.Good (s.idNow nm S) := .inr (.inr ⟨x, a.info⟩)

theorem idNow_held {s : Prog} {T : RType} {k : TypeId} (hv : Reg.isVoid T = false) (h : s.reg.holders T = some k) : s.idNow nm T = k := by
  unfold Prog.idNow Reg.metaTypeId
  rw [if_neg (by rw [hv]; nofun), h]

theorem void_decT {T : RType} (h : Reg.isVoid (Reg.decT T) = false) : Reg.isVoid T = false := by
  cases hv : Reg.isVoid T with
  | false => rfl
  | true =>
    have : Reg.isVoid (Reg.decT T) = true := by
      unfold Reg.isVoid at hv
      split at hv
      · rename_i b
        have hv : b.kind = .void := by simpa using hv
        simp [Reg.decT, CType.fullDecay, CType.decay, CType.removeAllCv, CType.removeCv, Reg.isVoid, hv]
      · cases hv
    rw [this] at h; cases h

theorem asked_held (h0 : ∀ T, nm T ≠ []) {cs : List Call} {T : RType} (h : .idOf T ∈ cs) (hv : Reg.isVoid T = false) :
    ∃ k, (init.run nm cs).reg.holders T = some k := by
  obtain ⟨l, l', rfl⟩ := List.append_of_mem h
  rw [run_append]
  have i := (Inv.init nm).run h0 l
  have h := (Reg.metaTypeId_ok (nm := nm) (T := T) i.ok).2.held hv
  exact ⟨_, (Keeps.run h0 l' (i.use h0 T)).reg.holders _ _ h⟩

section
variable {s : Prog} (i : Inv nm s) {P : RType → Prop} (hinj : ∀ S T, P S → P T → nm S = nm T → S = T) (dd : s.reg.Decays P)
include i hinj dd

theorem Inv.knows {T : RType} {k : TypeId} (hT : s.reg.holders T = some k) (hv : Reg.isVoid (Reg.decT T) = false) : ∃ x, Knows nm s T x := by
  have e := idNow_held (nm := nm) (void_decT hv) hT
  obtain ⟨x, hx, -, dx⟩ := i.texts.own hinj i.ok dd.used hT
  have a0 := (i.ok.info _ x hx).2.1
  exact ⟨x, by rw [e]; omega, by rw [e]; exact hx, dx, dd.decay T k x hT hx hv⟩

theorem Knows.same {S T : RType} {x y : Info} (a : Knows nm s S x) (b : Knows nm s T y) : x.decay = y.decay ↔ S.t.fullDecay = T.t.fullDecay := by
  have da := a.dec
  have db := b.dec
  constructor
  · intro e
    rw [e] at da
    have h1 := i.texts.held _ _ da
    have h2 := i.texts.held _ _ db
    obtain ⟨u, hu, eu⟩ := i.ok.names _ _ h1
    obtain ⟨v, hv, ev⟩ := i.ok.names _ _ h2
    rw [hu] at hv; cases hv
    have := hinj _ _ (dd.used _ _ da) (dd.used _ _ db) (eu.symm.trans ev)
    exact (RType.mk.inj this).2
  · intro e
    unfold Reg.decT at da db
    rw [e, db] at da
    exact (Option.some.inj da).symm

/-- the decayed type is its own decayed type -/
theorem Knows.decayed {S : RType} {x : Info} (hv : Reg.isVoid (Reg.decT S) = false) (a : Knows nm s S x) :
    ∃ y, Knows nm s (Reg.decT S) y ∧ y.decay = x.decay := by
  obtain ⟨y, hy⟩ := i.knows hinj dd a.dec (by rw [Reg.decT_decT]; exact hv)
  refine ⟨y, hy, ?_⟩
  have := hy.dec
  rw [Reg.decT_decT, a.dec] at this
  exact (Option.some.inj this).symm

end

section
variable {s : Prog} (i : Inv nm s)
include i

theorem Inv.ofId (k : TypeId) : (s.reg.ofId k).2 = k := by
  have hd := (i.ok.phases rfl).1
  rw [Reg.ofId_eq]
  simp [Reg.hd, hd]

theorem Inv.find_eq (t : TypeId) : s.world.find t = s.world.metaClass t := by
  unfold World.find
  split
  · rfl
  · rename_i h
    cases hm : s.world.metaClass t with
    | none => rfl
    | some c => exact absurd (i.loose.mc t c hm).1 h

theorem Inv.lookup (t : TypeId) (h : t = 0 ∨ ∃ x, s.reg.info t = some x) : s.lookup t = .val (s.world.find t) := by
  unfold Prog.lookup
  rw [i.ofId]
  dsimp only
  split
  · rename_i e
    rw [e, World.find, i.valid0]; rfl
  · rename_i e
    rcases h with h | ⟨x, hx⟩
    · exact absurd h e
    · rw [i.find_eq]
      simp only [Reg.deref, hx, Res.bind]

theorem Knows.compat {S T : RType} {x y : Info} (a : Knows nm s S x) (b : Knows nm s T y) :
    s.compat (s.idNow nm S) (s.idNow nm T) = Val.compat S T := by
  unfold Prog.compat Val.compat
  rw [i.ofId, i.ofId]
  unfold Reg.compatibleH
  rw [if_neg (not_or.2 ⟨a.pos, b.pos⟩)]
  simp only [Reg.deref, a.info, b.info, Res.bind, Ret.lift, a.desc, b.desc, Ret.bind]
  cases compatible (describe S) (describe T) <;> rfl

theorem Knows.seen {S : RType} {x : Info} (a : Knows nm s S x) : s.seen (s.idNow nm S) = .ok ⟨true, x.name, describe S, x.decay⟩ := by
  unfold Prog.seen Reg.observe
  rw [i.ofId, if_neg a.pos]
  simp only [Reg.deref, a.info, Res.bind, Ret.lift, a.desc]

/-- the converter in a slot -/
def itemAt (r : Reg) (k : Nat × Nat) : Option Nat :=
  match r.items k with
  | none => none
  | some s => match r.slots s with
    | .live fn => some fn
    | _ => none

theorem Knows.convert {S T : RType} {x y : Info} (a : Knows nm s S x) (b : Knows nm s T y) :
    ∃ r', s.reg.convert (s.idNow nm S) (s.idNow nm T) = .val (r', itemAt s.reg (x.decay, y.decay)) := by
  obtain ⟨p1, p2⟩ := i.ok.phases rfl
  unfold Reg.convert Reg.convertH
  dsimp only
  rw [Reg.withList_eq]
  rcases Reg.withList_ok none _ a.good b.good with ⟨e, h⟩ | ⟨i', j', hi, hj, _, _, hd, _, e⟩
  · rcases h with h | h | h | h
    · exact absurd h a.pos
    · exact absurd h b.pos
    · exact absurd h p1
    · exact absurd h p2
  · rw [e]
    rw [a.info] at hi
    rw [b.info] at hj
    cases hi; cases hj
    simp only [Reg.touchC_items, Reg.touch_items, Reg.touchC_slots, Reg.touch_slots]
    unfold itemAt
    cases hk : s.reg.items (x.decay, y.decay) with
    | none => exact ⟨_, rfl⟩
    | some sl =>
      obtain ⟨_, ⟨fn, hs⟩, _⟩ := i.ok.items _ sl hk
      simp only [hs]
      exact ⟨_, rfl⟩

theorem Knows.hasConverter {S T : RType} {x y : Info} (a : Knows nm s S x) (b : Knows nm s T y) :
    ∃ r', s.reg.hasConverter (s.idNow nm S) (s.idNow nm T) = .val (r', (itemAt s.reg (x.decay, y.decay)).isSome) := by
  obtain ⟨p1, p2⟩ := i.ok.phases rfl
  unfold Reg.hasConverter Reg.hasConverterH
  dsimp only
  rw [Reg.withList_eq]
  rcases Reg.withList_ok false _ a.good b.good with ⟨e, h⟩ | ⟨i', j', hi, hj, _, _, hd, _, e⟩
  · rcases h with h | h | h | h
    · exact absurd h a.pos
    · exact absurd h b.pos
    · exact absurd h p1
    · exact absurd h p2
  · rw [e]
    rw [a.info] at hi
    rw [b.info] at hj
    cases hi; cases hj
    simp only [Reg.touchC_items, Reg.touch_items]
    unfold itemAt
    cases hk : s.reg.items (x.decay, y.decay) with
    | none => exact ⟨_, rfl⟩
    | some sl =>
      obtain ⟨_, ⟨fn, hs⟩, _⟩ := i.ok.items _ sl hk
      simp only [hs]
      exact ⟨_, rfl⟩

end

theorem removeAllCv_base {t : CType} {b : Base} {q : CV} (h : t.removeAllCv = .base b q) : q = ⟨false, false⟩ := by
  cases t <;> simp only [CType.removeAllCv] at h <;> cases h
  rfl

theorem tag_class {t : CType} {b : Base} (h : tag t = .cls b ∨ tag t = .clsPtr b) : classOf t = clsType b ∧ b.kind = .cls := by
  unfold tag at h
  unfold classOf clsType
  unfold CType.fullDecay at *
  split at h
  · rename_i b' q e
    have := removeAllCv_base e
    rw [e]
    split at h
    · rcases h with h | h <;> cases h
      exact ⟨by rw [this]; rfl, by assumption⟩
    · rcases h with h | h <;> cases h
  · rename_i q' b' q e
    have : q = ⟨false, false⟩ := by
      cases ht : t.decay with
      | base _ _ => rw [ht] at e; cases e
      | arr _ _ => rw [ht] at e; cases e
      | ptr _ t' =>
        rw [ht] at e
        simp only [CType.removeAllCv] at e
        injection e with _ e
        exact removeAllCv_base e
    rw [e]
    split at h
    · rcases h with h | h <;> cases h
      exact ⟨by rw [this]; rfl, by assumption⟩
    · rcases h with h | h <;> cases h
  · rcases h with h | h <;> cases h

/-- the ids the objects answer with may be looked at -/
structure Answers (nm : RType → Str) (U : Outside) (s : Prog) (v : Vnt) : Prop where
  held : ∀ h b, v.held = some h → (tag h.t = .cls b ∨ tag h.t = .clsPtr b) → ∃ x, s.reg.info (s.idNow nm (clsType b)) = some x
  dyn : ∀ b a, (U.dyn b a).1 = 0 ∨ ∃ x, s.reg.info (U.dyn b a).1 = some x

section
variable {s : Prog} (i : Inv nm s) {U : Outside} {v : Vnt} (A : Answers nm U s v)
include A

theorem Answers.object {h : Held} {b : Base} (hv : v.held = some h) (ht : tag h.t = .cls b ∨ tag h.t = .clsPtr b) {a : Addr} {j : TypeId × Addr}
    (e : Val.objectInfo (s.env nm U) b a = .ok j) : j.1 = 0 ∨ ∃ x, s.reg.info j.1 = some x := by
  unfold Val.objectInfo at e
  split at e
  · split at e
    · cases e
    · cases e; exact A.dyn b a
  · cases e; exact .inr (A.held h b hv ht)

theorem Answers.info {j : TypeId × Addr} (e : Val.classInfo (s.env nm U) v = .ok j) : j.1 = 0 ∨ ∃ x, s.reg.info j.1 = some x := by
  unfold Val.classInfo at e
  split at e
  · cases e; exact .inl rfl
  · rename_i h hv
    split at e
    · cases e; exact .inl rfl
    · split at e
      · cases e; exact .inl rfl
      · rename_i b ht; exact A.object hv (.inl ht) e
      · rename_i b ht; exact A.object hv (.inr ht) e

include i

theorem Answers.isImp {t : CType} {b : Base} (ht : tag t = .cls b ∨ tag t = .clsPtr b) (hC : ∃ x, s.reg.info (s.idNow nm (classOf t)) = some x) :
    s.isImp nm U v (classOf t) = Val.isImp (s.env nm U) v b := by
  unfold Prog.isImp Val.isImp
  cases e : Val.classInfo (s.env nm U) v with
  | ok j =>
    simp only [Ret.bind]
    rw [i.ofId, i.lookup _ (A.info e), i.lookup _ (.inr hC), (tag_class ht).1]
    have hw : (s.env nm U).w = s.world := rfl
    have ht' : (s.env nm U).tid b = s.idNow nm (clsType b) := rfl
    rw [hw, ht']
    simp only [Res.bind]
    by_cases h0 : j.1 = 0
    · rw [if_pos h0, h0, i.valid0]; rfl
    · rw [if_neg h0]
      cases hval : s.world.valid j.1 with
      | false =>
        have : s.world.find j.1 = none := by unfold World.find; rw [hval]; rfl
        rw [this]; rfl
      | true =>
        simp only [Bool.not_true, Bool.false_eq_true, if_false]
        cases s.world.find j.1 with
        | none => rfl
        | some f => cases s.world.find (s.idNow nm (clsType b)) <;> rfl
  | _ => rfl

theorem Answers.castImp {t : CType} {b : Base} (ht : tag t = .cls b ∨ tag t = .clsPtr b) (hC : ∃ x, s.reg.info (s.idNow nm (classOf t)) = some x) :
    s.castImp nm U v (classOf t) = Val.castImp (s.env nm U) v b := by
  unfold Prog.castImp Val.castImp
  cases e : Val.classInfo (s.env nm U) v with
  | ok j =>
    simp only [Ret.bind]
    rw [i.ofId, i.lookup _ (A.info e), i.lookup _ (.inr hC), (tag_class ht).1]
    have hw : (s.env nm U).w = s.world := rfl
    have ht' : (s.env nm U).tid b = s.idNow nm (clsType b) := rfl
    rw [hw, ht']
    simp only [Res.bind]
    by_cases h0 : j.1 = 0
    · rw [if_pos h0, h0, i.valid0]; rfl
    · rw [if_neg h0]
      cases hval : s.world.valid j.1 with
      | false =>
        have : s.world.find j.1 = none := by unfold World.find; rw [hval]; rfl
        rw [this]; rfl
      | true =>
        simp only [Bool.not_true, Bool.false_eq_true, if_false]
        cases s.world.find j.1 with
        | none => rfl
        | some f => cases s.world.find (s.idNow nm (clsType b)) <;> rfl
  | _ => rfl

variable {P : RType → Prop} (hinj : ∀ S T, P S → P T → nm S = nm T → S = T) (dd : s.reg.Decays P) {S T : RType} {x y : Info}
  (a : Knows nm s S x) (b : Knows nm s T y)
include hinj dd a b

theorem Answers.metafuncIs (hC : ∀ b, tag T.t = .cls b ∨ tag T.t = .clsPtr b → ∃ x, s.reg.info (s.idNow nm (classOf T.t)) = some x) :
    s.metafuncIs nm U v (s.idNow nm S) T = Val.metafuncIs (s.env nm U) v S T := by
  unfold Prog.metafuncIs Val.metafuncIs
  rw [a.compat i b, a.seen i, b.seen i]
  simp only [Ret.bind, Knows.same i hinj dd a b]
  split
  · rfl
  · cases Val.compat S T with
    | ok c =>
      dsimp only
      split
      · rfl
      · split
        · rfl
        · split
          · rename_i e; rw [e]
          · rename_i c e
            rw [e]
            dsimp only
            rw [A.isImp i (.inl e) (hC c (.inl e))]
          · rename_i c e
            rw [e]
            dsimp only
            rw [A.isImp i (.inr e) (hC c (.inr e))]
    | _ => rfl

theorem Answers.metafuncCast (hC : ∀ b, tag T.t = .cls b ∨ tag T.t = .clsPtr b → ∃ x, s.reg.info (s.idNow nm (classOf T.t)) = some x) :
    s.metafuncCast nm U v (s.idNow nm S) T = Val.metafuncCast (s.env nm U) v S T := by
  unfold Prog.metafuncCast Val.metafuncCast Val.castTo
  rw [a.compat i b, a.seen i, b.seen i]
  simp only [Ret.bind, Knows.same i hinj dd a b]
  split
  · rfl
  · cases Val.compat S T with
    | ok c =>
      dsimp only
      cases c
      · rfl
      · simp only [Bool.not_true, Bool.false_eq_true, if_false]
        by_cases hd : S.t.fullDecay = T.t.fullDecay
        · rw [if_pos hd, if_pos hd]; rfl
        · rw [if_neg hd, if_neg hd]
          cases e : tag T.t with
          | nope => rfl
          | cls c =>
            dsimp only
            rw [A.castImp i (.inl e) (hC c (.inl e))]
            rfl
          | clsPtr c =>
            dsimp only
            rw [A.castImp i (.inr e) (hC c (.inr e))]
            rfl
    | _ => rfl

/-- the converter found for the ids is the one found for the decayed types -/
theorem Answers.conv (hS : Reg.isVoid (Reg.decT S) = false) (hT : Reg.isVoid (Reg.decT T) = false) :
    (s.env nm U).conv S.t.fullDecay T.t.fullDecay = (itemAt s.reg (x.decay, y.decay)).map U.fns := by
  obtain ⟨x', a', ex⟩ := a.decayed i hinj dd hS
  obtain ⟨y', b', ey⟩ := b.decayed i hinj dd hT
  have keep : ∀ {T : RType} {x : Info}, Reg.isVoid (Reg.decT T) = false → Knows nm s T x → (s.reg.metaTypeId nm (Reg.decT T)).1 = s.reg := by
    intro T x hv k
    unfold Reg.metaTypeId
    rw [if_neg (by rw [hv]; nofun), k.dec]
  have e : s.reg.convertT nm (Reg.decT S) (Reg.decT T) = s.reg.convert (s.idNow nm (Reg.decT S)) (s.idNow nm (Reg.decT T)) := by
    unfold Reg.convertT
    dsimp only
    rw [keep hS a, keep hT b]
    rfl
  obtain ⟨r', hr⟩ := a'.convert i b'
  unfold Prog.env
  dsimp only
  rw [show (⟨.none, S.t.fullDecay⟩ : RType) = Reg.decT S from rfl, show (⟨.none, T.t.fullDecay⟩ : RType) = Reg.decT T from rfl, e, hr, ex, ey]
  cases itemAt s.reg (x.decay, y.decay) <;> rfl

theorem Answers.convert (hS : Reg.isVoid (Reg.decT S) = false) (hT : Reg.isVoid (Reg.decT T) = false) (c : Addr) :
    s.convert U c (s.idNow nm S) (s.idNow nm T) = Val.convert (s.env nm U) c S.t T.t := by
  unfold Prog.convert Val.convert
  rw [A.conv i hinj dd a b hS hT]
  obtain ⟨r', hr⟩ := a.convert i b
  rw [hr]
  simp only [Ret.lift, Ret.bind]
  cases itemAt s.reg (x.decay, y.decay) <;> rfl

end

section
variable {s : Prog} (i : Inv nm s) {U : Outside} {v : Vnt} (A : Answers nm U s v)
  {P : RType → Prop} (hinj : ∀ S T, P S → P T → nm S = nm T → S = T) (dd : s.reg.Decays P) {S : RType} {t : CType} {x y : Info}
  (a : Knows nm s S x) (b : Knows nm s ⟨.none, t⟩ y)
include A i hinj dd a b

theorem Answers.metafuncTo (hS : Reg.isVoid (Reg.decT S) = false) (hT : Reg.isVoid ⟨.none, t.fullDecay⟩ = false)
    (hC : ∀ b, tag t = .cls b ∨ tag t = .clsPtr b → ∃ x, s.reg.info (s.idNow nm (classOf t)) = some x) :
    s.metafuncTo nm U v (s.idNow nm S) t = Val.metafuncTo (s.env nm U) v S t := by
  unfold Prog.metafuncTo Val.metafuncTo Val.toCast
  dsimp only
  rw [a.compat i b, a.seen i, b.seen i, A.convert i hinj dd a b hS hT]
  simp only [Ret.bind, Knows.same i hinj dd a b]
  split
  · rfl
  · cases Val.compat S ⟨.none, t⟩ with
    | ok c =>
      dsimp only
      cases c
      · rfl
      · simp only [Bool.not_true, Bool.false_eq_true, if_false, Bool.true_and, decide_eq_true_eq, if_true]
        by_cases hd : S.t.fullDecay = t.fullDecay
        · rw [if_pos hd, if_pos hd]
          cases Val.copyConstruct (s.env nm U) t v.access <;> rfl
        · rw [if_neg hd, if_neg hd]
          cases e : tag t with
          | nope => rfl
          | cls c =>
            dsimp only
            rw [A.castImp i (.inl e) (hC c (.inl e))]
            rfl
          | clsPtr c =>
            dsimp only
            rw [A.castImp i (.inr e) (hC c (.inr e))]
            rfl
    | _ => rfl

end

end Rtti.ClassFind
