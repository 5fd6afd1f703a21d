import Verif.Lemmas.ClassFind
import Verif.Props.Types
/-
C93: types are told apart by their text; classes are found by the text of their type.
The text of a type, `type_name<T>()`, is `nm`; nothing is assumed about it but that it is not empty.
-/
set_option autoImplicit false
namespace Rtti.Props
open Rtti Spec ClassFind

variable {nm : RType → Str}

/-- C93: after any calls, two types have the same id exactly when they have the same text. -/
theorem C93_ids (h0 : ∀ T, nm T ≠ []) (cs : List Call) (S T : RType) (hS : Reg.isVoid S = false) (hT : Reg.isVoid T = false) :
    let s := init.run nm (cs ++ [.idOf S, .idOf T])
    s.idNow nm S = s.idNow nm T ↔ nm S = nm T := by
  have i := (Inv.init nm).run h0 (cs ++ [.idOf S, .idOf T])
  dsimp only
  generalize hs : init.run nm (cs ++ [.idOf S, .idOf T]) = s at *
  have hold : ∀ U, (U = S ∨ U = T) → Reg.isVoid U = false → ∃ k, s.reg.holders U = some k := by
    intro U hU hv
    have j := (Inv.init nm).run h0 cs
    have e1 : s = ((init.run nm cs).run nm [.idOf S, .idOf T]) := by rw [← hs, run_append]
    have e2 : s = ((((init.run nm cs).use nm S).1).use nm T).1 := e1
    rw [e2]
    rcases hU with rfl | rfl
    · have h1 := (Reg.metaTypeId_ok (nm := nm) (T := U) j.ok).2.held hv
      exact ⟨_, (Keeps.use (j.use h0 U) T).reg.holders _ _ h1⟩
    · exact ⟨_, (Reg.metaTypeId_ok (nm := nm) (T := U) (j.use h0 S).ok).2.held hv⟩
  have now : ∀ U, (U = S ∨ U = T) → Reg.isVoid U = false → s.reg.names (nm U) = some (s.idNow nm U) := by
    intro U hU hv
    obtain ⟨k, hk⟩ := hold U hU hv
    have : s.idNow nm U = k := by
      unfold Prog.idNow Reg.metaTypeId
      rw [if_neg (by rw [hv]; nofun), hk]
    rw [this]
    exact i.texts.held U k hk
  have a := now S (.inl rfl) hS
  have b := now T (.inr rfl) hT
  constructor
  · intro e
    rw [e] at a
    obtain ⟨x, hx, ex⟩ := i.ok.names _ _ a
    obtain ⟨y, hy, ey⟩ := i.ok.names _ _ b
    rw [hx] at hy
    cases hy
    exact ex.symm.trans ey
  · intro e
    rw [e, b] at a
    exact (Option.some.inj a).symm

/-- C93: what is known about a type is its text and the description of a type of that text; its own, if no other type has
    the same text. -/
theorem C93_description (h0 : ∀ T, nm T ≠ []) (cs : List Call) (T : RType) (hT : Reg.isVoid T = false) :
    let s := (init.run nm cs).use nm T
    ∃ T' o, s.1.reg.observe s.2 = .val o ∧ o.valid = true ∧ o.name = nm T ∧ nm T' = nm T ∧ o.desc = describe T' := by
  have i := (Inv.init nm).run h0 cs
  dsimp only
  generalize init.run nm cs = s at *
  obtain ⟨hn, hz⟩ := i.idNow h0 T hT
  have j := i.use h0 T
  obtain ⟨x, hx, ex⟩ := j.ok.names _ _ hn
  obtain ⟨T', -, e1, e2⟩ := j.texts.from_ _ x hx
  have hx' : (s.use nm T).1.reg.info (s.use nm T).2 = some x := hx
  have hz' : (s.use nm T).2 ≠ 0 := hz
  refine ⟨T', ⟨true, x.name, x.desc, x.decay⟩, ?_, rfl, ex, e1.trans ex, e2⟩
  unfold Reg.observe
  rw [if_neg hz']
  simp only [Reg.deref, hx', Res.bind]

/-- C93: after any calls `MetaClass::find(name)` finds the class `c` exactly when `name` is the text registered for the
    type that `c` describes; the name the class was defined under does not matter. -/
theorem C93_found (h0 : ∀ T, nm T ≠ []) (cs : List Call) (n : Str) (c : Ptr) :
    let s := init.run nm cs
    s.findName n = some c ↔ s.world.kind c = some .cls ∧
      ∃ o, s.reg.observe (s.world.cls c).typeId = .val o ∧ o.valid = true ∧ o.name = n := by
  have i := (Inv.init nm).run h0 cs
  dsimp only
  generalize init.run nm cs = s at *
  rw [i.findName]
  constructor
  · intro h
    split at h
    · cases h
    cases hk : s.reg.names n with
    | none => rw [hk] at h; cases h
    | some k =>
      rw [hk] at h
      have h : s.world.metaClass k = some c := h
      obtain ⟨x, hx, ex⟩ := i.ok.names n k hk
      have hp := (i.ok.info k x hx).2.1
      refine ⟨(i.loose.mc k c h).2, ⟨true, x.name, x.desc, x.decay⟩, ?_, rfl, ex⟩
      rw [i.links.tid k c h]
      unfold Reg.observe
      rw [if_neg (by omega)]
      simp only [Reg.deref, hx, Res.bind]
  · rintro ⟨hk, o, ho, hv, hn⟩
    have hm := i.listed c hk
    unfold Reg.observe at ho
    split at ho
    · cases ho; cases hv
    · cases hx : s.reg.info (s.world.cls c).typeId with
      | none => simp only [Reg.deref, hx, Res.bind] at ho; cases ho
      | some x =>
        simp only [Reg.deref, hx, Res.bind] at ho
        cases ho
        obtain ⟨h1, -, -, h4, -⟩ := i.ok.info _ x hx
        dsimp only at hn
        rw [hn] at h1 h4
        rw [if_neg h4, h1]
        exact hm

/-- C93: finding a class by the text of a type and by its id is the same. -/
theorem C93_by_type (h0 : ∀ T, nm T ≠ []) (cs : List Call) (T : RType) (hT : Reg.isVoid T = false) :
    let s := (init.run nm cs).use nm T
    s.1.findName (nm T) = s.1.findId s.2 := by
  have i := (Inv.init nm).run h0 cs
  dsimp only
  generalize init.run nm cs = s at *
  obtain ⟨hn, hz⟩ := i.idNow h0 T hT
  have j := i.use h0 T
  rw [j.findName, if_neg (h0 T), hn]
  exact (j.findId (k := s.idNow nm T) hz).symm

/-- C93: a class just defined, under whatever name, is found by the text of its type, and stays found whatever is called
    afterwards. -/
theorem C93_defined (h0 : ∀ T, nm T ≠ []) (cs cs' : List Call) (o p : Ptr) (n : Str) (T : RType) (hT : Reg.isVoid T = false)
    (hnew : ((init.run nm cs).use nm T).1.world.getItem o .cls n = .val none)
    (hp : ((init.run nm cs).step nm (.cls o n T)).2 = .val (some p)) :
    (init.run nm (cs ++ .cls o n T :: cs')).findName (nm T) = some p := by
  have i := (Inv.init nm).run h0 cs
  have e : init.run nm (cs ++ .cls o n T :: cs') = ((init.run nm cs).step nm (.cls o n T)).1.run nm cs' := by
    rw [run_append]; rfl
  rw [e]
  generalize init.run nm cs = s at *
  obtain ⟨hn, hz⟩ := i.idNow h0 T hT
  have j := i.use h0 T
  have hc : (s.step nm (.cls o n T)).1.world.metaClass (s.idNow nm T) = some p := World.createClass_new j.loose hnew hp
  have k := i.step h0 (.cls o n T)
  have g := Keeps.run h0 cs' k
  rw [(k.run h0 cs').findName, if_neg (h0 T), g.reg.names (nm T) (s.idNow nm T) hn]
  exact g.cls _ _ hc

/-- C93: what `MetaClass::find(name)` finds it finds ever after. -/
theorem C93_stays (h0 : ∀ T, nm T ≠ []) (cs cs' : List Call) (n : Str) (c : Ptr) (h : (init.run nm cs).findName n = some c) :
    (init.run nm (cs ++ cs')).findName n = some c := by
  have i := (Inv.init nm).run h0 cs
  rw [run_append]
  generalize init.run nm cs = s at *
  have g := Keeps.run h0 cs' i
  rw [i.findName] at h
  rw [(i.run h0 cs').findName]
  split at h
  · cases h
  rename_i hn
  rw [if_neg hn]
  cases hk : s.reg.names n with
  | none => rw [hk] at h; cases h
  | some k =>
    rw [hk] at h
    rw [g.reg.names n k hk]
    exact g.cls _ _ h

/-- the types the calls name, and their decayed types, are told apart by their texts -/
def ToldApart (nm : RType → Str) (cs : List Call) : Prop :=
  let used := cs.flatMap Call.types ++ (cs.flatMap Call.types).map fun T => ⟨.none, T.t.fullDecay⟩
  ∀ S ∈ used, ∀ T ∈ used, nm S = nm T → S = T

/-- C93: if texts tell types apart, a variant holding the one type is taken to hold the other exactly if the types are compatible
    and the same up to references, const and decay of arrays (`SameDecay`): comparing ids is comparing types. -/
theorem C93_holds_partial (h0 : ∀ T, nm T ≠ []) (cs : List Call) (S T : RType) (ht : ToldApart nm (cs ++ [.idOf S, .idOf T]))
    (hS : Reg.isVoid S = false) (hT : Reg.isVoid T = false) (hS' : Reg.isVoid ⟨.none, S.t.fullDecay⟩ = false)
    (hT' : Reg.isVoid ⟨.none, T.t.fullDecay⟩ = false) :
    let s := init.run nm (cs ++ [.idOf S, .idOf T])
    (s.holds (s.idNow nm S) (s.idNow nm T) = .val none ↔ compatible (describe S) (describe T) = none) ∧
    (s.holds (s.idNow nm S) (s.idNow nm T) = .val (some true) ↔ compatible (describe S) (describe T) = some true ∧ SameDecay S.t T.t) ∧
    ∃ a, s.holds (s.idNow nm S) (s.idNow nm T) = .val a := by
  have i := (Inv.init nm).run h0 (cs ++ [.idOf S, .idOf T])
  have hinj : ∀ S' T', _ → _ → nm S' = nm T' → S' = T' := fun S' T' a b e => ht S' a T' b e
  have dd := Inv.decays h0 hinj (cs ++ [.idOf S, .idOf T])
    (fun c hc T hT => ⟨List.mem_append_left _ (List.mem_flatMap.2 ⟨c, hc, hT⟩),
      List.mem_append_right _ (List.mem_map.2 ⟨T, List.mem_flatMap.2 ⟨c, hc, hT⟩, rfl⟩)⟩)
    (Inv.init nm) ⟨fun _ _ h => (nomatch h), fun _ _ _ h => (nomatch h)⟩
  have j := (Inv.init nm).run h0 cs
  obtain ⟨a, ha, ea⟩ := j.asked h0 S T S (.inl rfl) hS
  obtain ⟨b, hb, eb⟩ := j.asked h0 S T T (.inr rfl) hT
  dsimp only
  rw [← run_append] at ha ea hb eb
  rw [ea, eb]
  generalize init.run nm (cs ++ [.idOf S, .idOf T]) = s at *
  obtain ⟨x, hx, -, dx⟩ := i.texts.own hinj i.ok dd.used ha
  obtain ⟨y, hy, -, dy⟩ := i.texts.own hinj i.ok dd.used hb
  have a0 := (i.ok.info _ x hx).2.1
  have b0 := (i.ok.info _ y hy).2.1
  have hd := (i.ok.phases rfl).1
  have da := dd.decay S a x ha hx hS'
  have db := dd.decay T b y hb hy hT'
  have same : x.decay = y.decay ↔ SameDecay S.t T.t := by
    rw [← C03_decay_identifies]
    constructor
    · intro e
      rw [e] at da
      have h1 := i.texts.held _ _ da
      have h2 := i.texts.held _ _ db
      obtain ⟨u, hu, eu⟩ := i.ok.names _ _ h1
      obtain ⟨v, hv, ev⟩ := i.ok.names _ _ h2
      rw [hu] at hv; cases hv
      have := hinj _ _ (dd.used _ _ da) (dd.used _ _ db) (eu.symm.trans ev)
      exact (RType.mk.inj this).2
    · intro e
      unfold Reg.decT at da db
      rw [e, db] at da
      exact (Option.some.inj da).symm
  have key : s.holds a b = match compatible (describe S) (describe T) with
      | none => .val none
      | some false => .val (some false)
      | some true => .val (some (x.decay == y.decay)) := by
    unfold Prog.holds
    rw [Reg.ofId_eq, Reg.ofId_eq]
    simp only [Reg.hd, hd, if_false]
    unfold Reg.compatibleH Reg.observe
    rw [if_neg (by omega), if_neg (by omega), if_neg (by omega)]
    simp only [Reg.deref, hx, hy, Res.bind, dx, dy]
    rcases compatible (describe S) (describe T) with _ | _ | _ <;> rfl
  rw [key]
  rcases hc : compatible (describe S) (describe T) with _ | _ | _
  · simp
  · simp
  · simp [same]

/-! a text that does not tell all types apart: two classes `X` in unnamed namespaces of two files, of 4 and of 8 bytes -/

private def plain : Traits := ⟨true, true, false, false, true, true, true, true, true, true, true⟩
private def xOne : RType := ⟨.none, .base ⟨1, .cls, 4, plain⟩ ⟨false, false⟩⟩
private def xTwo : RType := ⟨.none, .base ⟨2, .cls, 8, plain⟩ ⟨false, false⟩⟩
private def other : RType := ⟨.none, .base ⟨3, .cls, 8, plain⟩ ⟨false, false⟩⟩
private def text (T : RType) : Str :=
  if T = xOne ∨ T = xTwo then "{anonymous}::X".toList else if T = other then "ns::Base".toList else ['?']

/-- C93 is false: two types of the same text (classes of the same name in unnamed namespaces of two files) have one id, and
    the description of the second is that of the first, also its size. -/
theorem C93_same_text_false : ∃ (nm : RType → Str) (S T : RType), (∀ U, nm U ≠ []) ∧ S ≠ T ∧
    (describe S).size ≠ (describe T).size ∧
    let s := init.run nm [.idOf S, .idOf T]
    s.idNow nm S = s.idNow nm T ∧ ∃ o, s.reg.observe (s.idNow nm T) = .val o ∧ o.desc.size = (describe S).size := by
  refine ⟨text, xOne, xTwo, ?_, by decide, by decide, by decide +kernel, ?_⟩
  · intro U
    unfold text
    split
    · decide
    · split <;> decide
  · exact ⟨⟨true, "{anonymous}::X".toList, describe xOne, 1⟩, by decide +kernel, rfl⟩

/-- C93 is false: of two classes whose types have the same text the second cannot be defined, except under the name of the
    first, where its definition goes into that of the first; it is found by type where only the first was defined. -/
theorem C93_same_text_class_false : ∃ (nm : RType → Str) (S T : RType), (∀ U, nm U ≠ []) ∧ S ≠ T ∧
    let s := init.run nm [.cls World.globalNs ['A'] S]
    (s.step nm (.cls World.globalNs ['B'] T)).2 = .throw .duplicateClass ∧
    (s.step nm (.cls World.globalNs ['A'] T)).2 = .val (some 2) ∧
    s.findId (s.idNow nm T) = some 2 ∧ s.world.name 2 = ['A'] := by
  refine ⟨text, xOne, xTwo, ?_, by decide, by decide +kernel⟩
  intro U
  unfold text
  split
  · decide
  · split <;> decide

/-- C93 is false: a variant that holds an object of the one type is taken to hold one of the other: `is`, `ref` and `to` accept
    it, also where the other type is larger. -/
theorem C93_same_text_cast_false : ∃ (nm : RType → Str) (S T : RType), (∀ U, nm U ≠ []) ∧ S ≠ T ∧
    (describe S).size < (describe T).size ∧
    let s := init.run nm [.idOf S, .idOf T]
    s.holds (s.idNow nm S) (s.idNow nm T) = .val (some true) := by
  refine ⟨text, xOne, xTwo, ?_, by decide, by decide, by decide +kernel⟩
  intro U
  unfold text
  split
  · decide
  · split <;> decide

/-- C93, what it is not: the name a class was defined under does not find it. -/
theorem C93_own_name_false : ∃ (nm : RType → Str) (T : RType) (n : Str) (c : Ptr), (∀ U, nm U ≠ []) ∧
    let s := init.run nm [.cls World.globalNs n T]
    s.world.name c = n ∧ s.findId (s.idNow nm T) = some c ∧ s.findName (nm T) = some c ∧ s.findName n = none := by
  refine ⟨text, other, "Base".toList, 2, ?_, by decide +kernel⟩
  intro U
  unfold text
  split
  · decide
  · split <;> decide

-- the hypotheses of `C93_defined` and its conclusion, with another class defined afterwards
example : let s := init.run text [.idOf xOne]
    (s.use text other).1.world.getItem World.globalNs .cls ['B'] = .val none ∧
    (s.step text (.cls World.globalNs ['B'] other)).2 = .val (some 2) ∧
    (init.run text [.idOf xOne, .cls World.globalNs ['B'] other, .cls 2 ['C'] xOne, .base 2 xOne id]).findName "ns::Base".toList = some 2 ∧
    (init.run text [.idOf xOne, .cls World.globalNs ['B'] other, .cls 2 ['C'] xOne]).findName "{anonymous}::X".toList = some 3 := by
  decide +kernel
-- the hypotheses of `C93_holds_partial`
example : ToldApart text [.cls World.globalNs ['B'] other, .idOf xOne, .idOf other] ∧ Reg.isVoid ⟨.none, xOne.t.fullDecay⟩ = false ∧
    (compatible (describe xOne) (describe other) = some true) := by
  refine ⟨?_, by decide, by decide⟩
  intro S hS T hT
  simp only [List.flatMap_cons, List.flatMap_nil, Call.types, List.cons_append, List.nil_append, List.map_cons, List.map_nil, List.append_nil,
    List.mem_cons, List.not_mem_nil, or_false] at hS hT
  have e1 : (⟨.none, xOne.t.fullDecay⟩ : RType) = xOne := by decide
  have e2 : (⟨.none, other.t.fullDecay⟩ : RType) = other := by decide
  rw [e1, e2] at hS hT
  have hS : S = xOne ∨ S = other := by rcases hS with h | h | h | h | h | h <;> simp [h]
  have hT : T = xOne ∨ T = other := by rcases hT with h | h | h | h | h | h <;> simp [h]
  rcases hS with rfl | rfl <;> rcases hT with rfl | rfl <;> decide
-- types that are told apart are not taken for one another
example : let s := init.run text [.idOf xOne, .idOf other]
    s.holds (s.idNow text xOne) (s.idNow text other) = .val (some false) ∧
    s.holds (s.idNow text xOne) (s.idNow text xOne) = .val (some true) := by
  decide +kernel
-- two types that are told apart, as in `C93_ids`
example : Reg.isVoid xOne = false ∧ Reg.isVoid other = false ∧ text xOne ≠ text other ∧
    (let s := init.run text [.idOf xOne, .idOf other]; s.idNow text xOne ≠ s.idNow text other) := by decide +kernel

end Rtti.Props
