import Verif.Spec.RegFaults
import Verif.Lemmas.Converters
set_option autoImplicit false
namespace Rtti
open Spec Reg

namespace FReg
variable {nm : RType → Str} {oom : Nat → Bool}

/-- an allocation of the call failed -/
def Failed (oom : Nat → Bool) (a b : Nat) : Prop := ∃ k, a ≤ k ∧ k < b ∧ oom k = true

theorem Failed.mono {a b c d : Nat} (h : Failed oom b c) (h1 : a ≤ b) (h2 : c ≤ d) : Failed oom a d := by
  obtain ⟨k, e1, e2, e3⟩ := h
  exact ⟨k, by omega, by omega, e3⟩

/-- what a call that threw may have left in the registry -/
structure Part (nm : RType → Str) (r r' : Reg) : Prop where
  ok : r'.Ok false
  typed : TOk nm r'
  grows : Grows r r'
  items : r'.items = r.items
  slots : r'.slots = r.slots

theorem Part.trans {a b c : Reg} (h : Part nm a b) (h' : Part nm b c) : Part nm a c :=
  ⟨h'.ok, h'.typed, h.grows.trans h'.grows, h'.items.trans h.items, h'.slots.trans h.slots⟩

theorem Part.refl {r : Reg} (o : r.Ok false) (t : TOk nm r) : Part nm r r := ⟨o, t, .refl r, rfl, rfl⟩

theorem Part.touch {r : Reg} (o : r.Ok false) (t : TOk nm r) : Part nm r r.touch :=
  ⟨o.touch, ⟨by simpa using t.held, by simpa using t.names⟩, .touch r, by simp, by simp⟩

/-- an address is used up -/
theorem Part.skip {r : Reg} (o : r.Ok false) (t : TOk nm r) : Part nm r { r with next := r.next + 1 } :=
  ⟨⟨Nat.succ_pos _, o.names, fun k i h => by
      obtain ⟨a, b, c, d, e⟩ := o.info k i h
      exact ⟨a, b, Nat.lt_succ_of_lt c, d, e⟩, fun T k h => (o.holders T k h), o.items, o.oTypes, o.oConvs, o.afterTypes,
      o.afterConvs, o.noDead, o.phases⟩,
    ⟨t.held, t.names⟩, ⟨fun _ _ => id, fun _ _ => id, fun _ _ => id, Nat.le_succ _, Iff.rfl⟩, rfl, rfl⟩

/-- a call that registers a type -/
structure IdF (nm : RType → Str) (oom : Nat → Bool) (s : FReg) (y : Reg × Nat) (x : FReg × Option Nat) : Prop where
  n : s.n ≤ x.1.n
  ok : ∀ id, x.2 = some id → (x.1.reg, id) = y ∧ x.1.lost = s.lost
  failed : x.2 = none → Failed oom s.n x.1.n ∧ x.1.lost.length ≤ s.lost.length + 1
  part : s.reg.Ok false → TOk nm s.reg → x.2 = none → Part nm s.reg x.1.reg

theorem addTypeInfo_spec (s : FReg) (m : Str) (d : Desc) (c : Nat) :
    IdF nm oom s (s.reg.addTypeInfo m d c) (s.addTypeInfo oom m d c) ∧
    (s.addTypeInfo oom m d c).1.reg.types = s.reg.types ∧
    ((s.addTypeInfo oom m d c).2 = none → (s.addTypeInfo oom m d c).1.reg.holders = s.reg.holders) := by
  unfold FReg.addTypeInfo
  by_cases h : m = []
  · rw [if_pos h]
    refine ⟨⟨Nat.le_refl _, ?_, nofun, nofun⟩, rfl, nofun⟩
    intro id e; cases e
    simp [Reg.addTypeInfo, h]
  rw [if_neg h]
  cases hm : s.reg.names m with
  | some k =>
    refine ⟨⟨Nat.le_refl _, ?_, nofun, nofun⟩, rfl, nofun⟩
    intro id e; cases e
    simp [Reg.addTypeInfo, h, hm]
  | none =>
    dsimp only
    by_cases h1 : oom s.n = true
    · rw [if_pos h1]
      exact ⟨⟨Nat.le_succ _, nofun, fun _ => ⟨⟨s.n, Nat.le_refl _, Nat.lt_succ_self _, h1⟩, Nat.le_succ _⟩,
        fun o t _ => .refl o t⟩, rfl, fun _ => rfl⟩
    rw [if_neg h1]
    by_cases h2 : oom (s.n + 1) = true
    · rw [if_pos h2]
      exact ⟨⟨Nat.le_add_right _ _, nofun, fun _ => ⟨⟨s.n + 1, Nat.le_succ _, Nat.lt_succ_self _, h2⟩, Nat.le_refl _⟩,
        fun o t _ => .skip o t⟩, rfl, fun _ => rfl⟩
    rw [if_neg h2]
    refine ⟨⟨Nat.le_add_right _ _, ?_, nofun, nofun⟩, ?_, nofun⟩
    · intro id e; cases e; exact ⟨rfl, rfl⟩
    · simp [Reg.addTypeInfo, h, hm]

theorem registerMetaType_spec (s : FReg) (m : Str) (d : Desc) (c : Nat) :
    IdF nm oom s (s.reg.registerMetaType m d c) (s.registerMetaType oom m d c) ∧
    ((s.registerMetaType oom m d c).2 = none → (s.registerMetaType oom m d c).1.reg.holders = s.reg.holders) := by
  unfold FReg.registerMetaType
  rw [registerMetaType_eq, customTypes_eq]
  by_cases h : s.reg.types = .destroyed
  · rw [if_pos h, if_pos h]
    refine ⟨⟨Nat.le_refl _, ?_, nofun, nofun⟩, nofun⟩
    intro id e; cases e; exact ⟨rfl, rfl⟩
  · rw [if_neg h, if_neg h]
    obtain ⟨i, _, hh⟩ := addTypeInfo_spec (nm := nm) (oom := oom) { s with reg := s.reg.touch } m d c
    refine ⟨⟨i.n, i.ok, i.failed, fun o t e => ?_⟩, fun e => (hh e).trans (by simp)⟩
    have p := Part.touch o t
    exact p.trans (i.part p.ok p.typed e)

theorem initHolder_spec (s : FReg) (T : RType) (c : Nat) :
    IdF nm oom s (s.reg.initHolder nm T c) (s.initHolder oom nm T c) ∧
    ((s.initHolder oom nm T c).2 = none → (s.initHolder oom nm T c).1.reg.holders = s.reg.holders) := by
  obtain ⟨i, hh⟩ := registerMetaType_spec (nm := nm) (oom := oom) s (nm T) (describe T) c
  unfold FReg.initHolder Reg.initHolder
  generalize s.registerMetaType oom (nm T) (describe T) c = x at *
  obtain ⟨s', _ | id⟩ := x
  · exact ⟨⟨i.n, nofun, i.failed, i.part⟩, hh⟩
  · obtain ⟨e, l⟩ := i.ok id rfl
    refine ⟨⟨i.n, ?_, nofun, nofun⟩, nofun⟩
    intro id' e'; cases e'
    dsimp only at e l ⊢
    rw [← e]
    exact ⟨rfl, l⟩

theorem metaTypeIdDecayed_spec (s : FReg) (T : RType) :
    IdF nm oom s (s.reg.metaTypeIdDecayed nm T) (s.metaTypeIdDecayed oom nm T) ∧
    ((s.metaTypeIdDecayed oom nm T).2 = none → (s.metaTypeIdDecayed oom nm T).1.reg.holders = s.reg.holders ∧
      isVoid T = false ∧ s.reg.holders T = none) := by
  unfold FReg.metaTypeIdDecayed Reg.metaTypeIdDecayed
  by_cases hv : isVoid T = true
  · rw [if_pos hv, if_pos hv]
    exact ⟨⟨Nat.le_refl _, fun id e => by cases e; exact ⟨rfl, rfl⟩, nofun, nofun⟩, nofun⟩
  rw [if_neg hv, if_neg hv]
  cases hT : s.reg.holders T with
  | some k => exact ⟨⟨Nat.le_refl _, fun id e => by cases e; exact ⟨rfl, rfl⟩, nofun, nofun⟩, nofun⟩
  | none =>
    obtain ⟨i, hh⟩ := initHolder_spec (nm := nm) (oom := oom) s T 0
    exact ⟨i, fun e => ⟨hh e, by simpa using hv, rfl⟩⟩

theorem metaTypeId_spec (hn : Function.Injective nm) (h0 : ∀ T, nm T ≠ []) (s : FReg) (T : RType) :
    IdF nm oom s (s.reg.metaTypeId nm T) (s.metaTypeId oom nm T) ∧
    ((s.metaTypeId oom nm T).2 = none → (∀ X, X ≠ dec T → (s.metaTypeId oom nm T).1.reg.holders X = s.reg.holders X) ∧
      isVoid T = false ∧ s.reg.holders T = none ∧ (s.metaTypeId oom nm T).1.reg.holders T = none) := by
  unfold FReg.metaTypeId Reg.metaTypeId
  by_cases hv : isVoid T = true
  · rw [if_pos hv, if_pos hv]
    exact ⟨⟨Nat.le_refl _, fun id e => by cases e; exact ⟨rfl, rfl⟩, nofun, nofun⟩, nofun⟩
  rw [if_neg hv, if_neg hv]
  have hv' : isVoid T = false := by simpa using hv
  cases hT : s.reg.holders T with
  | some k => exact ⟨⟨Nat.le_refl _, fun id e => by cases e; exact ⟨rfl, rfl⟩, nofun, nofun⟩, nofun⟩
  | none =>
    dsimp only
    by_cases hD : T = ⟨.none, T.t.fullDecay⟩
    · rw [if_pos hD, if_pos hD]
      obtain ⟨i, hh⟩ := initHolder_spec (nm := nm) (oom := oom) s T 0
      exact ⟨i, fun e => ⟨fun X _ => by rw [hh e], hv', rfl, by rw [hh e]; exact hT⟩⟩
    · rw [if_neg hD, if_neg hD]
      obtain ⟨i, hh⟩ := metaTypeIdDecayed_spec (nm := nm) (oom := oom) s ⟨.none, T.t.fullDecay⟩
      have hX := fun X hX => metaTypeIdDecayed_holders (nm := nm) (r := s.reg) (T := ⟨.none, T.t.fullDecay⟩) (S := X) hX
      have ho := fun o => metaTypeIdDecayed_ok (nm := nm) (r := s.reg) (T := ⟨.none, T.t.fullDecay⟩) (sd := false) o
      have ht := fun o t => metaTypeIdDecayed_typed hn h0 (r := s.reg) (T := ⟨.none, T.t.fullDecay⟩) (dec_dec T) o t
      generalize s.metaTypeIdDecayed oom nm ⟨.none, T.t.fullDecay⟩ = x at *
      generalize s.reg.metaTypeIdDecayed nm ⟨.none, T.t.fullDecay⟩ = y at *
      obtain ⟨s', _ | d⟩ := x
      · refine ⟨⟨i.n, nofun, i.failed, i.part⟩, fun _ => ?_⟩
        obtain ⟨e, _⟩ := hh rfl
        dsimp only at e ⊢
        rw [e]
        exact ⟨fun X _ => rfl, hv', rfl, hT⟩
      · obtain ⟨e, l⟩ := i.ok d rfl
        have in' := i.n
        dsimp only at e l in' ⊢
        obtain ⟨j, hj⟩ := initHolder_spec (nm := nm) (oom := oom) s' T d
        rw [← e] at hX ho ht
        refine ⟨⟨Nat.le_trans in' j.n, ?_, ?_, ?_⟩, ?_⟩
        · intro id e'
          rw [← e]
          obtain ⟨a, b⟩ := j.ok id e'
          exact ⟨a, b.trans l⟩
        · intro e'
          obtain ⟨a, b⟩ := j.failed e'
          exact ⟨a.mono in' (Nat.le_refl _), by rw [← l]; exact b⟩
        · intro o t e'
          obtain ⟨o1, i1⟩ := ho o
          exact (Part.mk o1 (ht o t) i1.grows i1.items i1.slots).trans (j.part o1 (ht o t) e')
        · intro e'
          rw [hj e']
          exact ⟨hX, hv', rfl, (hX T hD).trans hT⟩

/-- two ids -/
structure IdsF (nm : RType → Str) (oom : Nat → Bool) (s : FReg) (S T : RType) (x : FReg × Option (Nat × Nat)) : Prop where
  n : s.n ≤ x.1.n
  ok : ∀ a b, x.2 = some (a, b) → (s.reg.metaTypeId nm S).2 = a ∧
    (x.1.reg, b) = (s.reg.metaTypeId nm S).1.metaTypeId nm T ∧ x.1.lost = s.lost
  failed : x.2 = none → Failed oom s.n x.1.n ∧ x.1.lost.length ≤ s.lost.length + 1
  part : s.reg.Ok false → TOk nm s.reg → x.2 = none → Part nm s.reg x.1.reg

theorem twoIds_spec (hn : Function.Injective nm) (h0 : ∀ T, nm T ≠ []) (s : FReg) (S T : RType) :
    IdsF nm oom s S T (s.twoIds oom nm S T) := by
  obtain ⟨i, _⟩ := metaTypeId_spec (oom := oom) hn h0 s S
  have ho := fun o => metaTypeId_ok (nm := nm) (r := s.reg) (T := S) (sd := false) o
  have ht := fun o t => metaTypeId_typed hn h0 (r := s.reg) S o t
  unfold twoIds
  generalize s.metaTypeId oom nm S = x at *
  obtain ⟨s', _ | a⟩ := x
  · exact ⟨i.n, nofun, fun _ => i.failed rfl, fun o t _ => i.part o t rfl⟩
  · obtain ⟨e, l⟩ := i.ok a rfl
    have in' := i.n
    dsimp only at e l in' ⊢
    obtain ⟨j, _⟩ := metaTypeId_spec (oom := oom) hn h0 s' T
    have part : s.reg.Ok false → TOk nm s.reg → Part nm s.reg s'.reg := by
      intro o t
      obtain ⟨o1, i1⟩ := ho o
      have t1 := ht o t
      rw [← e] at o1 i1 t1
      exact ⟨o1, t1, i1.grows, i1.items, i1.slots⟩
    generalize s'.metaTypeId oom nm T = x at *
    obtain ⟨s'', _ | b⟩ := x
    · have jn := j.n
      obtain ⟨a, b⟩ := j.failed rfl
      dsimp only at jn a b
      refine ⟨Nat.le_trans in' jn, nofun, fun _ => ⟨a.mono in' (Nat.le_refl _), by rw [← l]; exact b⟩, ?_⟩
      intro o t _
      have p := part o t
      exact p.trans (j.part p.ok p.typed rfl)
    · have jn := j.n
      obtain ⟨e2, l2⟩ := j.ok b rfl
      dsimp only at jn e2 l2
      refine ⟨Nat.le_trans in' jn, ?_, nofun, nofun⟩
      intro a' b' e'
      cases e'
      rw [← e]
      exact ⟨rfl, e2, l2.trans l⟩

/-! ### calls -/

/-- one call that may throw, beside the same call with memory -/
structure CallF {A : Type} (oom : Nat → Bool) (s : FReg) (y : Res (Reg × A)) (x : FReg × FOut A) : Prop where
  n : s.n ≤ x.1.n
  ok : ∀ a, x.2 = .ok a → y = .val (x.1.reg, a) ∧ x.1.lost = s.lost
  failed : ∀ m, x.2 = .threw m → Failed oom s.n x.1.n ∧ x.1.lost.length ≤ s.lost.length + 1
  term : x.2 = .terminated → Failed oom s.n x.1.n ∧ x.1.lost.length ≤ s.lost.length + 1
  ub : x.2 = .ub → ∀ z, y ≠ .val z

theorem quiet_spec {A : Type} (s : FReg) (y : Res (Reg × A)) : CallF oom s y (s.quiet y) := by
  unfold quiet
  cases y with
  | val p => exact ⟨Nat.le_refl _, fun a e => by cases e; exact ⟨rfl, rfl⟩, nofun, nofun, nofun⟩
  | _ => exact ⟨Nat.le_refl _, nofun, nofun, nofun, fun _ => nofun⟩

theorem CallF.map {A B : Type} {s : FReg} {y : Res (Reg × A)} {x : FReg × FOut A} (h : CallF oom s y x) (f : A → B) :
    CallF oom s (y.bind fun p => .val (p.1, f p.2)) (x.1, x.2.map f) := by
  obtain ⟨s', o⟩ := x
  cases o with
  | ok a =>
    obtain ⟨e, l⟩ := h.ok a rfl
    exact ⟨h.n, fun b e' => by simp only [FOut.map] at e'; cases e'; rw [e]; exact ⟨rfl, l⟩, nofun, nofun, nofun⟩
  | threw m => exact ⟨h.n, nofun, fun _ _ => h.failed m rfl, nofun, nofun⟩
  | terminated => exact ⟨h.n, nofun, nofun, fun _ => h.term rfl, nofun⟩
  | ub =>
    refine ⟨h.n, nofun, nofun, nofun, fun _ z => ?_⟩
    have := h.ub rfl
    cases y with
    | val p => exact absurd rfl (this p)
    | _ => simp [Res.bind]

/-- after the two ids -/
theorem twoIds_then {A : Type} (hn : Function.Injective nm) (h0 : ∀ T, nm T ≠ []) (s : FReg) (S T : RType)
    (fail : FOut A) (hf : fail = .terminated ∨ ∃ m, fail = .threw m) (f : Reg → Nat → Nat → Res (Reg × A))
    (g : FReg → Nat → Nat → FReg × FOut A) (hg : ∀ s a b, CallF oom s (f s.reg a b) (g s a b)) :
    CallF oom s (f ((s.reg.metaTypeId nm S).1.metaTypeId nm T).1 (s.reg.metaTypeId nm S).2 ((s.reg.metaTypeId nm S).1.metaTypeId nm T).2)
      (match s.twoIds oom nm S T with | (s, none) => (s, fail) | (s, some ab) => g s ab.1 ab.2) := by
  have i := twoIds_spec (oom := oom) hn h0 s S T
  generalize s.twoIds oom nm S T = x at *
  obtain ⟨s', _ | ⟨a, b⟩⟩ := x
  · obtain ⟨fa, l⟩ := i.failed rfl
    rcases hf with rfl | ⟨m, rfl⟩
    · exact ⟨i.n, nofun, nofun, fun _ => ⟨fa, l⟩, nofun⟩
    · exact ⟨i.n, nofun, fun _ _ => ⟨fa, l⟩, nofun, nofun⟩
  · obtain ⟨e1, e2, l⟩ := i.ok a b rfl
    have in' := i.n
    dsimp only at e1 e2 l in' ⊢
    have h := hg s' a b
    rw [← e2, e1]
    generalize g s' a b = z at *
    refine ⟨Nat.le_trans in' h.n, ?_, ?_, ?_, ?_⟩
    · intro c e
      obtain ⟨e3, l3⟩ := h.ok c e
      exact ⟨e3, l3.trans l⟩
    · intro m e
      obtain ⟨e3, l3⟩ := h.failed m e
      exact ⟨e3.mono in' (Nat.le_refl _), by rw [← l]; exact l3⟩
    · intro e
      obtain ⟨e3, l3⟩ := h.term e
      exact ⟨e3.mono in' (Nat.le_refl _), by rw [← l]; exact l3⟩
    · exact h.ub

theorem registerConverter_spec (s : FReg) (a b : Nat) (c : Slot) :
    CallF oom s (s.reg.registerConverter a b c) (s.registerConverter oom a b c) := by
  unfold FReg.registerConverter Reg.registerConverter withList
  dsimp only
  by_cases h : (s.reg.ofId a).2 = 0 ∨ ((s.reg.ofId a).1.ofId b).2 = 0
  · rw [if_pos h, if_pos h]
    exact ⟨Nat.le_refl _, fun a e => by cases e; exact ⟨rfl, rfl⟩, nofun, nofun, nofun⟩
  rw [if_neg h, if_neg h]
  cases hc : ((s.reg.ofId a).1.ofId b).1.customConverters with
  | none => exact ⟨Nat.le_refl _, fun a e => by cases e; exact ⟨rfl, rfl⟩, nofun, nofun, nofun⟩
  | some r =>
    dsimp only
    cases hk : r.key (s.reg.ofId a).2 ((s.reg.ofId a).1.ofId b).2 with
    | val k =>
      dsimp only [Res.bind]
      by_cases hi : (r.items k).isSome = true
      · rw [if_pos hi, if_pos hi]
        exact ⟨Nat.le_refl _, fun a e => by cases e; exact ⟨rfl, rfl⟩, nofun, nofun, nofun⟩
      · rw [if_neg hi, if_neg hi]
        by_cases ho : oom s.n = true
        · rw [if_pos ho]
          exact ⟨Nat.le_succ _, nofun, fun _ _ => ⟨⟨s.n, Nat.le_refl _, Nat.lt_succ_self _, ho⟩, Nat.le_succ _⟩, nofun, nofun⟩
        · rw [if_neg ho]
          exact ⟨Nat.le_succ _, fun a e => by cases e; exact ⟨rfl, rfl⟩, nofun, nofun, nofun⟩
    | _ => exact ⟨Nat.le_refl _, nofun, nofun, nofun, fun _ => nofun⟩

theorem registerConverterT_spec (hn : Function.Injective nm) (h0 : ∀ T, nm T ≠ []) (s : FReg) (S T : RType) (f fn : Nat) :
    CallF oom s (s.reg.registerConverterT nm S T f fn) (s.registerConverterT oom nm S T f fn) := by
  unfold FReg.registerConverterT Reg.registerConverterT FReg.useSlot
  dsimp only
  have key := fun s' : FReg => twoIds_then (oom := oom) hn h0 s' (dec S) (dec T) (.threw true) (.inr ⟨_, rfl⟩)
    (fun r a b => r.registerConverter a b (slotOf S T f)) (fun s a b => s.registerConverter oom a b (slotOf S T f))
    (fun s a b => registerConverter_spec s a b _)
  cases hs : s.reg.slots (slotOf S T f) with
  | none =>
    by_cases ho : oom s.n = true
    · simp only [ho, if_true]
      exact ⟨Nat.le_succ _, nofun, fun _ _ => ⟨⟨s.n, Nat.le_refl _, Nat.lt_succ_self _, ho⟩, Nat.le_succ _⟩, nofun, nofun⟩
    · simp only [ho, Bool.false_eq_true, if_false]
      have h := key { s with reg := s.reg.useSlot (slotOf S T f) fn, n := s.n + 1 }
      refine ⟨Nat.le_of_succ_le h.n, h.ok, ?_, ?_, ?_⟩
      · intro m e
        obtain ⟨a, b⟩ := h.failed m e
        exact ⟨a.mono (Nat.le_succ _) (Nat.le_refl _), b⟩
      · intro e
        obtain ⟨a, b⟩ := h.term e
        exact ⟨a.mono (Nat.le_succ _) (Nat.le_refl _), b⟩
      · exact h.ub
  | live x =>
    have e : s.reg.useSlot (slotOf S T f) fn = s.reg := by simp [Reg.useSlot, hs]
    rw [e]
    exact key s
  | dead =>
    have e : s.reg.useSlot (slotOf S T f) fn = s.reg := by simp [Reg.useSlot, hs]
    rw [e]
    exact key s

theorem ids_spec {s : FReg} {y : Reg × Nat} {x : FReg × Option Nat} (i : IdF nm oom s y x) :
    CallF oom s (.val (y.1, .id y.2)) (ids x) := by
  obtain ⟨s', _ | id⟩ := x
  · exact ⟨i.n, nofun, fun _ _ => i.failed rfl, nofun, nofun⟩
  · refine ⟨i.n, ?_, nofun, nofun, nofun⟩
    intro a e
    simp only [ids] at e; cases e
    obtain ⟨e, l⟩ := i.ok id rfl
    rw [← e]
    exact ⟨rfl, l⟩

theorem unregisterConverterT_spec (hn : Function.Injective nm) (h0 : ∀ T, nm T ≠ []) (s : FReg) (S T : RType) :
    CallF oom s (s.reg.unregisterConverterT nm S T) (s.unregisterConverterT oom nm S T) :=
  twoIds_then hn h0 s S T (.threw false) (.inr ⟨_, rfl⟩) (fun r a b => r.unregisterConverter a b)
    (fun s a b => s.quiet (s.reg.unregisterConverter a b)) (fun s _ _ => quiet_spec s _)

/-- any call except the destruction of a static -/
theorem step_spec (hn : Function.Injective nm) (h0 : ∀ T, nm T ≠ []) (s : FReg) (op : RegOp) (hd : op ≠ .destroy) :
    CallF oom s (s.reg.step nm op) (s.step oom nm op) := by
  cases op with
  | reg m d c => exact ids_spec (registerMetaType_spec (nm := nm) s m d c).1
  | idOf T => exact ids_spec (metaTypeId_spec hn h0 s T).1
  | hasT S T =>
    exact (twoIds_then hn h0 s S T .terminated (.inl rfl) (fun r a b => r.hasConverter a b)
      (fun s a b => s.quiet (s.reg.hasConverter a b)) (fun s _ _ => quiet_spec s _)).map _
  | convertT S T =>
    exact (twoIds_then hn h0 s S T (.threw false) (.inr ⟨_, rfl⟩) (fun r a b => r.convert a b)
      (fun s a b => s.quiet (s.reg.convert a b)) (fun s _ _ => quiet_spec s _)).map _
  | regT S T f fn => exact (registerConverterT_spec hn h0 s S T f fn).map _
  | unregT S T => exact (unregisterConverterT_spec hn h0 s S T).map fun _ => RegOut.unit
  | destroy => exact absurd rfl hd
  | _ => exact quiet_spec s _

/-! ### typed programs -/

/-- the static made by a call that threw -/
def madeBy (op : RegOp) (m : Bool) : List RegOp := if m then [op] else []

/-- after a typed call that threw -/
structure After (nm : RType → Str) (h g : List RegOp) (r r' : Reg) : Prop where
  ok : r'.Ok false
  typed : TOk nm r'
  grows : Grows r r'
  convs : COk2 h g r'

theorem Part.after (hn : Function.Injective nm) {h g : List RegOp} {r r' : Reg} (p : Part nm r r') (c : COk2 h g r) :
    After nm h g r r' :=
  ⟨p.ok, p.typed, p.grows, c.toCItems.grow hn p.typed p.grows p.items, by rw [p.slots]; exact c.slots⟩

theorem registerConverter_threw {s : FReg} {a b : Nat} {c : Slot} {m : Bool}
    (e : (s.registerConverter oom a b c).2 = .threw m) : m = true ∧ s.reg.types ≠ .destroyed ∧ s.reg.convs ≠ .destroyed ∧
    (s.registerConverter oom a b c).1.reg = s.reg.touch.touchC := by
  unfold FReg.registerConverter at e ⊢
  simp only [ofId_eq, touch_touch, hd_touch] at e ⊢
  by_cases hd : s.reg.types = .destroyed
  · simp [Reg.hd, hd] at e
  by_cases h : s.reg.hd a = 0 ∨ s.reg.hd b = 0
  · rw [if_pos h] at e; cases e
  rw [if_neg h] at e ⊢
  rw [customConverters_eq] at e ⊢
  by_cases hc : s.reg.convs = .destroyed
  · simp [hc] at e
  simp only [touch_convs, hc, if_false] at e ⊢
  cases hk : s.reg.touch.touchC.key (s.reg.hd a) (s.reg.hd b) with
  | val k =>
    simp only [hk] at e ⊢
    by_cases hi : (s.reg.touch.touchC.items k).isSome = true
    · rw [if_pos hi] at e; cases e
    rw [if_neg hi] at e ⊢
    by_cases ho : oom s.n = true
    · rw [if_pos ho] at e ⊢; cases e
      exact ⟨rfl, hd, hc, rfl⟩
    · rw [if_neg ho] at e; cases e
  | _ => simp [hk] at e

theorem typed_threw (hn : Function.Injective nm) (h0 : ∀ T, nm T ≠ []) {h g : List RegOp} {s : FReg} {op : RegOp} {m : Bool}
    (o : s.reg.Ok false) (t : TOk nm s.reg) (c : COk2 h g s.reg) (hc : TypedCall op) (e : (s.step oom nm op).2 = .threw m) :
    After nm h (g ++ madeBy op m) s.reg (s.step oom nm op).1.reg := by
  have two : ∀ {A : Type} (S T : RType) (f : FReg → Nat → Nat → Res (Reg × A)) (k : A → RegOut),
      ((match s.twoIds oom nm S T with
        | (s, none) => (s, FOut.threw false) | (s, some ab) => s.quiet (f s ab.1 ab.2)).2.map k) = .threw m →
      m = false ∧ Part nm s.reg (match s.twoIds oom nm S T with
        | (s, none) => (s, FOut.threw false) | (s, some ab) => s.quiet (f s ab.1 ab.2)).1.reg := by
    intro A S T f k e
    have i := twoIds_spec (oom := oom) hn h0 s S T
    generalize s.twoIds oom nm S T = x at *
    obtain ⟨s', _ | ab⟩ := x
    · simp only [FOut.map] at e; cases e
      exact ⟨rfl, i.part o t rfl⟩
    · exfalso
      simp only [quiet] at e
      cases hf : f s' ab.1 ab.2 <;> simp [hf, FOut.map] at e
  cases op with
  | idOf T =>
    obtain ⟨i, _⟩ := metaTypeId_spec (oom := oom) hn h0 s T
    simp only [FReg.step] at e ⊢
    generalize s.metaTypeId oom nm T = x at *
    obtain ⟨s', _ | id⟩ := x
    · simp only [ids] at e ⊢; cases e
      simpa [madeBy] using (i.part o t rfl).after hn c
    · simp [ids] at e
  | lookup n =>
    simp only [FReg.step, quiet, Reg.step] at e; cases e
  | hasT S T =>
    exfalso
    simp only [FReg.step, FReg.hasConverterT] at e
    generalize s.twoIds oom nm S T = x at *
    obtain ⟨s', _ | ab⟩ := x
    · simp [FOut.map] at e
    · simp only [quiet] at e
      cases hf : s'.reg.hasConverter ab.1 ab.2 <;> simp [hf, FOut.map] at e
  | convertT S T =>
    obtain ⟨rfl, p⟩ := two S T (fun s a b => s.reg.convert a b) _ e
    have := p.after hn c
    rw [show ∀ op, g ++ madeBy op false = g by simp [madeBy]]
    exact this
  | unregT S T =>
    obtain ⟨rfl, p⟩ := two S T (fun s a b => s.reg.unregisterConverter a b) _ e
    have := p.after hn c
    rw [show ∀ op, g ++ madeBy op false = g by simp [madeBy]]
    exact this
  | regT S T f fn =>
    simp only [FReg.step] at e ⊢
    -- the part after the static is there
    have key : ∀ s' : FReg, s'.reg = s.reg.useSlot (slotOf S T f) fn →
        ∀ x, x = (match s'.twoIds oom nm (dec S) (dec T) with
          | (s, none) => (s, FOut.threw true) | (s, some ab) => s.registerConverter oom ab.1 ab.2 (slotOf S T f)) →
        x.2.map RegOut.bool = .threw m → After nm h (g ++ madeBy (.regT S T f fn) m) s.reg x.1.reg := by
      intro s' es x ex e'
      have uo := useSlot_ok (fn := fn) o (o.noDead rfl (slotOf S T f))
      have ui := useSlot_items s.reg (slotOf S T f) fn
      have uh := useSlot_holders s.reg (slotOf S T f) fn
      have un : (s.reg.useSlot (slotOf S T f) fn).names = s.reg.names := by unfold Reg.useSlot; split <;> rfl
      have uinf : (s.reg.useSlot (slotOf S T f) fn).info = s.reg.info := by unfold Reg.useSlot; split <;> rfl
      have us := useSlot_firstFn c.slots S T f fn
      rw [← es] at uo ui uh un uinf us
      have t1 : TOk nm s'.reg := ⟨by rw [uh, uinf]; exact t.held, by rw [uh, un]; exact t.names⟩
      have c1 : COk2 h (g ++ [.regT S T f fn]) s'.reg :=
        ⟨⟨by rw [uh, ui]; exact c.items, by rw [uh]; exact c.absent, by rw [uh, ui]; exact c.only⟩, us⟩
      have i := twoIds_spec (oom := oom) hn h0 s' (dec S) (dec T)
      obtain ⟨o2, t2, c2, g2, hi, hs, _⟩ := pair_key hn h0 (dec S) (dec T) uo.1 t1 c1.toCItems _ rfl _ rfl
      generalize s'.twoIds oom nm (dec S) (dec T) = y at *
      obtain ⟨s2, _ | ⟨a, b⟩⟩ := y
      · subst ex
        simp only [FOut.map] at e'; cases e'
        have A := (i.part uo.1 t1 rfl).after hn c1
        exact ⟨A.ok, A.typed, uo.2.1.trans A.grows, A.convs⟩
      · obtain ⟨_, e2, _⟩ := i.ok a b rfl
        subst ex
        dsimp only at e2 e' ⊢
        rw [← e2] at o2 t2 c2 g2 hi hs
        dsimp only at o2 t2 c2 g2 hi hs
        have e3 : (s2.registerConverter oom a b (slotOf S T f)).2 = .threw m := by
          cases hx : (s2.registerConverter oom a b (slotOf S T f)).2 <;> simp [hx, FOut.map] at e' ⊢
          exact e'
        obtain ⟨rfl, hd, _, er⟩ := registerConverter_threw e3
        rw [er]
        obtain ⟨o3, g3⟩ := o2.touch2 hd
        refine ⟨o3, ⟨by simpa using t2.held, by simpa using t2.names⟩, (uo.2.1.trans g2).trans g3, ?_⟩
        refine ⟨⟨by simpa using c2.items, by simpa using c2.absent, by simpa using c2.only⟩, ?_⟩
        simp only [touchC_slots, touch_slots, hs]
        exact us
    unfold FReg.registerConverterT FReg.useSlot at e ⊢
    dsimp only at e ⊢
    cases hs : s.reg.slots (slotOf S T f) with
    | none =>
      by_cases ho : oom s.n = true
      · simp only [hs, ho, if_true, FOut.map] at e ⊢
        cases e
        simpa [madeBy] using (Part.refl o t).after hn c
      · simp only [hs, ho, Bool.false_eq_true, if_false] at e ⊢
        exact key { s with reg := s.reg.useSlot (slotOf S T f) fn, n := s.n + 1 } rfl _ rfl e
    | live x =>
      simp only [hs] at e ⊢
      exact key s (by simp [Reg.useSlot, hs]) _ rfl e
    | dead => exact absurd hs (o.noDead rfl _)
  | _ => cases hc

/-- only `hasConverter` and destructors end the program -/
theorem step_terminated {s : FReg} {op : RegOp} (hd : op ≠ .destroy) (e : (s.step oom nm op).2 = .terminated) :
    ∃ S T, op = .hasT S T := by
  have q : ∀ {A : Type} (s : FReg) (y : Res (Reg × A)), (s.quiet y).2 ≠ .terminated := by
    intro A s y; cases y <;> simp [quiet]
  have mp : ∀ {A B : Type} (f : A → B) (x : FOut A), x.map f = .terminated → x = .terminated := by
    intro A B f x h; cases x <;> simp [FOut.map] at h ⊢
  have idq : ∀ x : FReg × Option Nat, (ids x).2 ≠ .terminated := by
    rintro ⟨s, _ | _⟩ <;> simp [ids]
  cases op with
  | hasT S T => exact ⟨S, T, rfl⟩
  | destroy => exact absurd rfl hd
  | reg n d c => exact absurd e (idq _)
  | idOf T => exact absurd e (idq _)
  | convertT S T =>
    have e := mp _ _ e
    unfold FReg.convertT at e
    generalize s.twoIds oom nm S T = x at *
    obtain ⟨s', _ | ab⟩ := x
    · cases e
    · exact absurd e (q _ _)
  | unregT S T =>
    have e := mp _ _ e
    unfold FReg.unregisterConverterT at e
    generalize s.twoIds oom nm S T = x at *
    obtain ⟨s', _ | ab⟩ := x
    · cases e
    · exact absurd e (q _ _)
  | regT S T f fn =>
    have e := mp _ _ e
    exfalso
    have rc : ∀ (s : FReg) (a b : Nat) (c : Slot), (s.registerConverter oom a b c).2 ≠ .terminated := by
      intro s a b c h
      unfold FReg.registerConverter at h
      dsimp only at h
      split at h
      · cases h
      · split at h
        · cases h
        · split at h
          · split at h
            · cases h
            · split at h <;> cases h
          · cases h
    unfold FReg.registerConverterT at e
    dsimp only at e
    generalize s.useSlot oom (slotOf S T f) fn = y at *
    obtain ⟨s1, _ | _⟩ := y
    · cases e
    · dsimp only at e
      generalize s1.twoIds oom nm ⟨.none, S.t.fullDecay⟩ ⟨.none, T.t.fullDecay⟩ = x at *
      obtain ⟨s', _ | ab⟩ := x
      · cases e
      · exact rc _ _ _ _ e
  | _ => exact absurd e (q _ _)

/-- typed calls are defined -/
theorem typed_val {r : Reg} {op : RegOp} (o : r.Ok false) (hc : TypedCall op) : ∃ r' a, r.step nm op = .val (r', a) ∧ r'.Ok false ∧
    Grows r r' := by
  have hl : LegalCall [] [] op := by cases op <;> first | trivial | (cases hc; done) | simp_all [LegalCall]
  obtain ⟨r', a, h1, h2, _, _, h3, _⟩ := step_ok (nm := nm) (h := []) (outs := []) o (by simp [known, Good]) (fun _ => rfl) hl
  have hd : op ≠ .destroy := by rintro rfl; cases hc
  exact ⟨r', a, h1, by simpa [hd] using h2, h3 hd⟩

structure Inv (nm : RType → Str) (h g : List RegOp) (s : FReg) : Prop where
  ok : s.reg.Ok false
  typed : TOk nm s.reg
  convs : COk2 h g s.reg

theorem Inv.init : Inv nm [] [] init := ⟨Ok.init, TOk.init, COk.init⟩

theorem step_ok_inv (hn : Function.Injective nm) (h0 : ∀ T, nm T ≠ []) {h g : List RegOp} {s s' : FReg} {op : RegOp} {a : RegOut}
    (v : Inv nm h g s) (hc : TypedCall op) (e : s.step oom nm op = (s', .ok a)) :
    Inv nm (h ++ [op]) (g ++ [op]) s' ∧ ConvAnswer2 h g op a ∧ Grows s.reg s'.reg ∧ s'.lost = s.lost ∧
      s.reg.step nm op = .val (s'.reg, a) := by
  have hd : op ≠ .destroy := by rintro rfl; cases hc
  have sp := step_spec (oom := oom) hn h0 s op hd
  rw [e] at sp
  obtain ⟨e1, l⟩ := sp.ok a rfl
  obtain ⟨r', a', e2, o2, g2⟩ := typed_val (nm := nm) v.ok hc
  rw [e1] at e2; cases e2
  obtain ⟨t, c, an⟩ := typed_step2 hn h0 v.ok v.typed v.convs hc e1
  exact ⟨⟨o2, t, c⟩, an, g2, l, e1⟩

theorem step_threw_inv (hn : Function.Injective nm) (h0 : ∀ T, nm T ≠ []) {h g : List RegOp} {s s' : FReg} {op : RegOp} {m : Bool}
    (v : Inv nm h g s) (hc : TypedCall op) (e : s.step oom nm op = (s', .threw m)) :
    Inv nm h (g ++ madeBy op m) s' ∧ Grows s.reg s'.reg ∧ s'.lost.length ≤ s.lost.length + 1 ∧ Failed oom s.n s'.n := by
  have hd : op ≠ .destroy := by rintro rfl; cases hc
  have sp := step_spec (oom := oom) hn h0 s op hd
  have A := typed_threw (oom := oom) (m := m) hn h0 v.ok v.typed v.convs hc (by rw [e])
  rw [e] at sp A
  obtain ⟨e1, l⟩ := sp.failed m rfl
  exact ⟨⟨A.ok, A.typed, A.convs⟩, A.grows, l, e1⟩

theorem step_not_ub (hn : Function.Injective nm) (h0 : ∀ T, nm T ≠ []) {h g : List RegOp} {s : FReg} {op : RegOp}
    (v : Inv nm h g s) (hc : TypedCall op) : (s.step oom nm op).2 ≠ .ub := by
  intro e
  have hd : op ≠ .destroy := by rintro rfl; cases hc
  have sp := step_spec (oom := oom) hn h0 s op hd
  obtain ⟨r', a', e2, _⟩ := typed_val (nm := nm) v.ok hc
  exact sp.ub e _ e2

/-- what an answer of `metaTypeId` says about the state -/
theorem idOf_held (hn : Function.Injective nm) (h0 : ∀ T, nm T ≠ []) {h g : List RegOp} {s s' : FReg} {T : RType} {k : Nat}
    (v : Inv nm h g s) (e : s.step oom nm (.idOf T) = (s', .ok (.id k))) :
    (isVoid T = true → k = 0) ∧ (isVoid T = false → s'.reg.holders T = some k) := by
  obtain ⟨_, _, _, _, e1⟩ := step_ok_inv hn h0 v (op := .idOf T) trivial e
  simp only [Reg.step, Res.val.injEq, Prod.mk.injEq, RegOut.id.injEq] at e1
  obtain ⟨_, i⟩ := metaTypeId_ok (nm := nm) (T := T) v.ok
  refine ⟨fun hv => ?_, fun hv => ?_⟩
  · rw [← e1.2]; exact i.void hv
  · rw [← e1.1, ← e1.2]; exact i.held hv

theorem idOf_held' (hn : Function.Injective nm) (h0 : ∀ T, nm T ≠ []) {h g : List RegOp} {s s' : FReg} {T : RType} {a : RegOut}
    (v : Inv nm h g s) (e : s.step oom nm (.idOf T) = (s', .ok a)) : isVoid T = true ∨ ∃ k, s'.reg.holders T = some k := by
  obtain ⟨_, _, _, _, e1⟩ := step_ok_inv hn h0 v (op := .idOf T) trivial e
  simp only [Reg.step, Res.val.injEq, Prod.mk.injEq] at e1
  rw [← e1.2] at e
  have := idOf_held hn h0 v e
  cases hv : isVoid T with
  | true => exact .inl rfl
  | false => exact .inr ⟨_, this.2 hv⟩

theorem done_cons_ok (op : RegOp) (a : RegOut) (ev : List (RegOp × FOut RegOut)) :
    Spec.done ((op, .ok a) :: ev) = op :: Spec.done ev := by simp [Spec.done]
theorem done_cons_threw (op : RegOp) (m : Bool) (ev : List (RegOp × FOut RegOut)) :
    Spec.done ((op, .threw m) :: ev) = Spec.done ev := by simp [Spec.done]
theorem made_cons_ok (op : RegOp) (a : RegOut) (ev : List (RegOp × FOut RegOut)) :
    Spec.made ((op, .ok a) :: ev) = op :: Spec.made ev := by simp [Spec.made]
theorem made_cons_threw (op : RegOp) (m : Bool) (ev : List (RegOp × FOut RegOut)) :
    Spec.made ((op, .threw m) :: ev) = madeBy op m ++ Spec.made ev := by cases m <;> simp [Spec.made, madeBy]

theorem run_cons (s : FReg) (op : RegOp) (ops : List RegOp) : s.run oom nm (op :: ops) =
    match s.step oom nm op with
    | (s, .terminated) => (s, [(op, .terminated)])
    | (s, .ub) => (s, [(op, .ub)])
    | (s, o) => ((s.run oom nm ops).1, (op, o) :: (s.run oom nm ops).2) := rfl

/-- the state in which a call of a program is made -/
theorem run_at (hn : Function.Injective nm) (h0 : ∀ T, nm T ≠ []) (ops : List RegOp) : ∀ {h g : List RegOp} {s : FReg},
    Inv nm h g s → (∀ op ∈ ops, TypedCall op) → ∀ i op o, (s.run oom nm ops).2[i]? = some (op, o) →
    TypedCall op ∧ ∃ s1 s2, Inv nm (h ++ Spec.done ((s.run oom nm ops).2.take i)) (g ++ Spec.made ((s.run oom nm ops).2.take i)) s1 ∧
      Grows s.reg s1.reg ∧ s1.step oom nm op = (s2, o) ∧
      (∀ j X a, j < i → (s.run oom nm ops).2[j]? = some (.idOf X, .ok a) → isVoid X = true ∨ ∃ k, s1.reg.holders X = some k) ∧
      ((∃ a, o = .ok a) ∨ (∃ m, o = .threw m) → ∃ ops2, (∀ op ∈ ops2, TypedCall op) ∧
        s2.run oom nm ops2 = ((s.run oom nm ops).1, (s.run oom nm ops).2.drop (i + 1))) := by
  induction ops with
  | nil => intro h g s _ _ i op o e; simp [run] at e
  | cons x ops ih =>
    intro h g s v hall i op o e
    have hx : TypedCall x := hall x (by simp)
    have hrest : ∀ op ∈ ops, TypedCall op := fun op h => hall op (by simp [h])
    rw [run_cons] at e ⊢
    cases hs : s.step oom nm x with
    | mk s' out =>
      rw [hs] at e
      cases out with
      | terminated =>
        cases i with
        | zero =>
          simp only [List.getElem?_cons_zero, Option.some.injEq, Prod.mk.injEq] at e
          obtain ⟨rfl, rfl⟩ := e
          exact ⟨hx, s, s', by simpa [Spec.done, Spec.made] using v, .refl _, hs, by simp, by simp⟩
        | succ i => simp at e
      | ub =>
        exact absurd (by rw [hs]) (step_not_ub (oom := oom) hn h0 v hx)
      | ok a =>
        cases i with
        | zero =>
          simp only [List.getElem?_cons_zero, Option.some.injEq, Prod.mk.injEq] at e
          obtain ⟨rfl, rfl⟩ := e
          exact ⟨hx, s, s', by simpa [Spec.done, Spec.made] using v, .refl _, hs, by simp, fun _ => ⟨ops, hrest, by simp⟩⟩
        | succ i =>
          obtain ⟨v', _, g', _⟩ := step_ok_inv hn h0 v hx hs
          simp only [List.getElem?_cons_succ] at e
          obtain ⟨t, s1, s2, v1, g1, e1, h1, k1⟩ := ih v' hrest i op o e
          refine ⟨t, s1, s2, ?_, g'.trans g1, e1, ?_, ?_⟩
          · simpa [List.take_succ_cons, done_cons_ok, made_cons_ok] using v1
          · intro j X b hj hX
            cases j with
            | zero =>
              simp only [List.getElem?_cons_zero, Option.some.injEq, Prod.mk.injEq, FOut.ok.injEq] at hX
              obtain ⟨rfl, rfl⟩ := hX
              exact (idOf_held' hn h0 v hs).imp id fun ⟨k, hk⟩ => ⟨k, g1.holders _ _ hk⟩
            | succ j => exact h1 j X b (by omega) (by simpa using hX)
          · simpa using k1
      | threw m =>
        cases i with
        | zero =>
          simp only [List.getElem?_cons_zero, Option.some.injEq, Prod.mk.injEq] at e
          obtain ⟨rfl, rfl⟩ := e
          exact ⟨hx, s, s', by simpa [Spec.done, Spec.made] using v, .refl _, hs, by simp, fun _ => ⟨ops, hrest, by simp⟩⟩
        | succ i =>
          obtain ⟨v', g', _⟩ := step_threw_inv hn h0 v hx hs
          simp only [List.getElem?_cons_succ] at e
          obtain ⟨t, s1, s2, v1, g1, e1, h1, k1⟩ := ih v' hrest i op o e
          refine ⟨t, s1, s2, ?_, g'.trans g1, e1, ?_, ?_⟩
          · simpa [List.take_succ_cons, done_cons_threw, made_cons_threw] using v1
          · intro j X b hj hX
            cases j with
            | zero => simp at hX
            | succ j => exact h1 j X b (by omega) (by simpa using hX)
          · simpa using k1

theorem metaTypeId_known {s : FReg} {T : RType} (h : isVoid T = true ∨ ∃ k, s.reg.holders T = some k) :
    ∃ k, s.metaTypeId oom nm T = (s, some k) := by
  unfold FReg.metaTypeId
  by_cases hv : isVoid T = true
  · exact ⟨0, by rw [if_pos hv]⟩
  · obtain ⟨k, hk⟩ := h.resolve_left hv
    exact ⟨k, by rw [if_neg hv, hk]⟩

theorem twoIds_known {s : FReg} {S T : RType} (h : isVoid S = true ∨ ∃ k, s.reg.holders S = some k)
    (h' : isVoid T = true ∨ ∃ k, s.reg.holders T = some k) : ∃ ab, s.twoIds oom nm S T = (s, some ab) := by
  obtain ⟨a, ha⟩ := metaTypeId_known (oom := oom) (nm := nm) h
  obtain ⟨b, hb⟩ := metaTypeId_known (oom := oom) (nm := nm) h'
  exact ⟨(a, b), by simp [twoIds, ha, hb]⟩

theorem lookup_named (hn : Function.Injective nm) (h0 : ∀ T, nm T ≠ []) {h g : List RegOp} {s s' : FReg} {n : Str} {k : Nat}
    (v : Inv nm h g s) (e : s.step oom nm (.lookup n) = (s', .ok (.id k))) :
    s'.reg.names = s.reg.names ∧ k = (if n = [] then 0 else (s.reg.names n).getD 0) := by
  obtain ⟨_, _, _, _, e1⟩ := step_ok_inv hn h0 v (op := .lookup n) trivial e
  have e' : s.reg.step nm (.lookup n) = .val (s.reg.touch, .id (s.reg.touch.hd (s.reg.hd (s.reg.getTypeInfo n)))) := by
    simp [Reg.step, ofName_eq, typeId_eq]
  rw [e'] at e1
  simp only [Res.val.injEq, Prod.mk.injEq, RegOut.id.injEq] at e1
  refine ⟨by rw [← e1.1]; simp, ?_⟩
  rw [← e1.2]
  simp only [Reg.hd, touch_destroyed, (v.ok.phases rfl).1, if_false]
  unfold getTypeInfo
  split
  · rfl
  · cases s.reg.names n <;> rfl

theorem run_lost (hn : Function.Injective nm) (h0 : ∀ T, nm T ≠ []) (ops : List RegOp) : ∀ {h g : List RegOp} {s : FReg},
    Inv nm h g s → (∀ op ∈ ops, TypedCall op) →
    (s.run oom nm ops).1.lost.length ≤ s.lost.length + Spec.failures (s.run oom nm ops).2 := by
  induction ops with
  | nil => intro h g s _ _; simp [run, Spec.failures]
  | cons x ops ih =>
    intro h g s v hall
    have hx : TypedCall x := hall x (by simp)
    have hrest : ∀ op ∈ ops, TypedCall op := fun op h => hall op (by simp [h])
    rw [run_cons]
    cases hs : s.step oom nm x with
    | mk s' out =>
      cases out with
      | terminated =>
        have hd : x ≠ .destroy := by rintro rfl; cases hx
        have sp := step_spec (oom := oom) hn h0 s x hd
        rw [hs] at sp
        simpa [Spec.failures] using (sp.term rfl).2
      | ub => exact absurd (by rw [hs]) (step_not_ub (oom := oom) hn h0 v hx)
      | ok a =>
        obtain ⟨v', _, _, l, _⟩ := step_ok_inv hn h0 v hx hs
        have := ih v' hrest
        rw [l] at this
        simpa [Spec.failures] using this
      | threw m =>
        obtain ⟨v', _, l, _⟩ := step_threw_inv hn h0 v hx hs
        have := ih v' hrest
        have e : Spec.failures ((x, FOut.threw m) :: (s'.run oom nm ops).2) = Spec.failures (s'.run oom nm ops).2 + 1 := by
          simp [Spec.failures]
        dsimp only
        rw [e]
        omega

/-- the end of a program that was not cut short -/
theorem run_inv (hn : Function.Injective nm) (h0 : ∀ T, nm T ≠ []) (ops : List RegOp) : ∀ {h g : List RegOp} {s : FReg},
    Inv nm h g s → (∀ op ∈ ops, TypedCall op) → (∀ op, (op, .terminated) ∉ (s.run oom nm ops).2) →
    Inv nm (h ++ Spec.done (s.run oom nm ops).2) (g ++ Spec.made (s.run oom nm ops).2) (s.run oom nm ops).1 := by
  induction ops with
  | nil => intro h g s v _ _; simpa [run, Spec.done, Spec.made] using v
  | cons x ops ih =>
    intro h g s v hall ht
    have hx : TypedCall x := hall x (by simp)
    have hrest : ∀ op ∈ ops, TypedCall op := fun op h => hall op (by simp [h])
    rw [run_cons] at ht ⊢
    cases hs : s.step oom nm x with
    | mk s' out =>
      rw [hs] at ht
      cases out with
      | terminated => exact absurd (by simp) (ht x)
      | ub => exact absurd (by rw [hs]) (step_not_ub (oom := oom) hn h0 v hx)
      | ok a =>
        obtain ⟨v', _⟩ := step_ok_inv hn h0 v hx hs
        have := ih v' hrest (fun op h => ht op (by simp [h]))
        simpa [done_cons_ok, made_cons_ok] using this
      | threw m =>
        obtain ⟨v', _⟩ := step_threw_inv hn h0 v hx hs
        have := ih v' hrest (fun op h => ht op (by simp [h]))
        simpa [done_cons_threw, made_cons_threw] using this

/-! ### shutdown -/

theorem destroy_spec (hn : Function.Injective nm) (h0 : ∀ T, nm T ≠ []) {sd : Bool} {s : FReg} (o : s.reg.Ok sd)
    (hm : ∀ k, s.n ≤ k → oom k = false) :
    ∃ s', s.step oom nm .destroy = (s', .ok .unit) ∧ s'.reg.Ok true ∧ s.n ≤ s'.n ∧ s.reg.destroyNext nm = .val s'.reg := by
  obtain ⟨r', a, h1, h2, _⟩ := step_ok (nm := nm) (sd := sd) (h := [.destroy]) (outs := []) (op := .destroy) o
    (by simp [known, Good]) (by simp) trivial
  simp only [Reg.step] at h1
  have h2 : r'.Ok true := by simpa using h2
  have h3 : s.reg.destroyNext nm = .val r' := by
    cases hx : s.reg.destroyNext nm with
    | val p => simp [hx, Res.bind] at h1; rw [h1.1]
    | _ => simp [hx, Res.bind] at h1
  rw [h3]
  simp only [FReg.step, FReg.destroyNext]
  unfold Reg.destroyNext at h3
  cases ho : s.reg.order with
  | nil =>
    simp only [ho] at h3 ⊢; cases h3
    exact ⟨s, rfl, h2, Nat.le_refl _, rfl⟩
  | cons x rest =>
    cases x with
    | types => simp only [ho] at h3 ⊢; cases h3; exact ⟨_, rfl, h2, Nat.le_refl _, rfl⟩
    | convs => simp only [ho] at h3 ⊢; cases h3; exact ⟨_, rfl, h2, Nat.le_refl _, rfl⟩
    | slot c =>
      simp only [ho] at h3 ⊢
      have sp := unregisterConverterT_spec (oom := oom) hn h0 { s with reg := { s.reg with order := rest } } ⟨.none, c.src⟩ ⟨.none, c.dst⟩
      have nf : ∀ m, ¬ Failed oom s.n m := by
        rintro m ⟨k, e1, _, e3⟩
        rw [hm k e1] at e3; cases e3
      generalize { s with reg := { s.reg with order := rest } }.unregisterConverterT oom nm ⟨.none, c.src⟩ ⟨.none, c.dst⟩ = x at *
      obtain ⟨s1, out⟩ := x
      dsimp only at sp
      cases hy : Reg.unregisterConverterT nm { s.reg with order := rest } ⟨.none, c.src⟩ ⟨.none, c.dst⟩ with
      | val p =>
        rw [hy] at h3 sp
        simp only [Res.bind] at h3; cases h3
        cases out with
        | ok u =>
          obtain ⟨e, _⟩ := sp.ok u rfl
          cases e
          exact ⟨_, rfl, h2, sp.n, rfl⟩
        | threw m => exact absurd (sp.failed m rfl).1 (nf _)
        | terminated => exact absurd (sp.term rfl).1 (nf _)
        | ub => exact absurd rfl (sp.ub rfl _)
      | _ => simp [hy, Res.bind] at h3

theorem destroy_all (hn : Function.Injective nm) (h0 : ∀ T, nm T ≠ []) (n : Nat) : ∀ {sd : Bool} {s : FReg}, s.reg.Ok sd →
    (∀ k, s.n ≤ k → oom k = false) →
    (s.run oom nm (List.replicate n .destroy)).2 = List.replicate n (.destroy, .ok .unit) := by
  induction n with
  | zero => intro sd s _ _; rfl
  | succ n ih =>
    intro sd s o hm
    obtain ⟨s', e, o', hn', _⟩ := destroy_spec (oom := oom) hn h0 o hm
    rw [List.replicate_succ, run_cons, e]
    simp only [List.replicate_succ, List.cons.injEq, true_and]
    exact ih o' fun k hk => hm k (Nat.le_trans hn' hk)

/-! ### base classes -/

end FReg
end Rtti
