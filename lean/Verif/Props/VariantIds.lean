import Verif.Lemmas.VariantIds
import Verif.Props.ClassFind
import Verif.Examples.Naming
/-
C94: looking into a variant through type ids, as the code does it, is looking at the types, as in `Model/Value.lean`.
-/
set_option autoImplicit false
namespace Rtti.Props
open Rtti Spec ClassFind
open Rtti.Val (Vnt Attr Access tag)

variable {nm : RType → Str}

/-- C94: what is assumed: the ids were asked for; the types named by the calls are told apart by their texts; the type held and
    the type asked for are not `void`; `classInfo()` answers with ids that were given out. -/
structure AsTypes (nm : RType → Str) (U : Outside) (cs : List Call) (v : Vnt) (a : Attr) (T : RType) : Prop where
  texts : ∀ T, nm T ≠ []
  told : ToldApart nm cs
  asks : ∀ S ∈ asked v a T, .idOf S ∈ cs
  held : ∀ h, v.held = some h → Reg.isVoid ⟨.none, (h.type a).t.fullDecay⟩ = false
  type : Reg.isVoid ⟨.none, T.t.fullDecay⟩ = false
  dyn : ∀ b x, ∃ o, (init.run nm cs).reg.observe (U.dyn b x).1 = .val o

theorem clsType_void {b : Base} (hb : b.kind = .cls) : Reg.isVoid (Reg.decT (clsType b)) = false := by
  simp [clsType, Reg.decT, CType.fullDecay, CType.decay, CType.removeAllCv, CType.removeCv, Reg.isVoid, hb]

/-- the types used -/
def AsTypes.P (cs : List Call) (S : RType) : Prop :=
  S ∈ cs.flatMap Call.types ++
    (cs.flatMap Call.types).map fun T : RType => (⟨.none, T.t.fullDecay⟩ : RType)

section
variable {U : Outside} {cs : List Call} {v : Vnt} {a : Attr} {T : RType} (h : AsTypes nm U cs v a T)
include h

theorem AsTypes.inv : Inv nm (init.run nm cs) := (Inv.init nm).run h.texts _

theorem AsTypes.inj (S S' : RType) (hS : AsTypes.P cs S) (hS' : AsTypes.P cs S') (e : nm S = nm S') : S = S' :=
  h.told S hS S' hS' e

theorem AsTypes.decays : (init.run nm cs).reg.Decays (AsTypes.P cs) :=
  Inv.decays h.texts h.inj _
    (fun c hc T hT => ⟨List.mem_append_left _ (List.mem_flatMap.2 ⟨c, hc, hT⟩),
      List.mem_append_right _ (List.mem_map.2 ⟨T, List.mem_flatMap.2 ⟨c, hc, hT⟩, rfl⟩)⟩)
    (Inv.init nm) ⟨fun _ _ h => (nomatch h), fun _ _ _ h => (nomatch h)⟩

theorem AsTypes.knows {S : RType} (hS : S ∈ asked v a T) (hv : Reg.isVoid (Reg.decT S) = false) : ∃ x, Knows nm (init.run nm cs) S x := by
  obtain ⟨k, hk⟩ := asked_held h.texts (h.asks S hS) (void_decT hv)
  exact h.inv.knows h.inj h.decays hk hv

theorem AsTypes.cls (b : Base) (hb : tag T.t = .cls b ∨ tag T.t = .clsPtr b) :
    ∃ x, (init.run nm cs).reg.info ((init.run nm cs).idNow nm (classOf T.t)) = some x := by
  obtain ⟨e, hk⟩ := tag_class hb
  obtain ⟨x, hx⟩ := h.knows (S := classOf T.t) (by
    refine List.mem_append_right _ (List.mem_cons_of_mem _ ?_)
    rcases hb with hb | hb <;> rw [hb] <;> exact List.mem_cons_self) (by rw [e]; exact clsType_void hk)
  exact ⟨x, hx.info⟩

theorem AsTypes.answers : Answers nm U (init.run nm cs) v where
  held := by
    intro g b hg hb
    obtain ⟨x, hx⟩ := h.knows (S := clsType b) (by
      refine List.mem_append_left _ ?_
      rw [hg]
      refine List.mem_cons_of_mem _ ?_
      rcases hb with hb | hb <;> rw [hb] <;> exact List.mem_cons_self) (clsType_void (tag_class hb).2)
    exact ⟨x, hx.info⟩
  dyn := by
    intro b y
    obtain ⟨o, ho⟩ := h.dyn b y
    unfold Reg.observe at ho
    split at ho
    · exact .inl (by assumption)
    · right
      cases hx : (init.run nm cs).reg.info (U.dyn b y).1 with
      | some x => exact ⟨x, rfl⟩
      | none => simp only [Reg.deref, hx, Res.bind] at ho; cases ho

theorem AsTypes.target : ∃ y, Knows nm (init.run nm cs) T y :=
  h.knows (List.mem_append_right _ List.mem_cons_self) h.type

theorem AsTypes.source {g : Val.Held} (hg : v.held = some g) : ∃ x, Knows nm (init.run nm cs) (g.type a) x :=
  h.knows (List.mem_append_left _ (by rw [hg]; exact List.mem_cons_self)) (h.held g hg)

end

/-- C94: `is` -/
theorem C94_is (U : Outside) (cs : List Call) (v : Vnt) (const : Bool) (T : RType)
    (h : AsTypes nm U cs v (if const then .lrefConst else .lref) T) :
    let s := init.run nm cs
    s.is nm U v const T = Val.is (s.env nm U) v const T := by
  dsimp only
  obtain ⟨y, hy⟩ := h.target
  unfold Prog.is Val.is Prog.heldId Vnt.type
  cases hg : v.held with
  | none => simp only [Prog.metafuncIs, Val.metafuncIs, hg, if_true]
  | some g =>
    obtain ⟨x, hx⟩ := h.source hg
    exact h.answers.metafuncIs h.inv h.inj h.decays hx hy h.cls

/-- C94: `ref`, `cref`, `rref`, and so `data` -/
theorem C94_reference (U : Outside) (cs : List Call) (v : Vnt) (a : Access) (t : CType) (h : AsTypes nm U cs v a.attr (a.target t)) :
    let s := init.run nm cs
    s.reference nm U v a t = Val.reference (s.env nm U) v a t := by
  dsimp only
  obtain ⟨y, hy⟩ := h.target
  unfold Prog.reference Val.reference Prog.heldId Vnt.type
  cases hg : v.held with
  | none => simp only [Prog.metafuncCast, Val.metafuncCast, hg, if_true]
  | some g =>
    obtain ⟨x, hx⟩ := h.source hg
    exact h.answers.metafuncCast h.inv h.inj h.decays hx hy h.cls

/-- C94: `to` -/
theorem C94_to (U : Outside) (cs : List Call) (v : Vnt) (const : Bool) (t : CType)
    (h : AsTypes nm U cs v (if const then .lrefConst else .lref) ⟨.none, t⟩) :
    let s := init.run nm cs
    s.to nm U v const t = Val.to (s.env nm U) v const t := by
  dsimp only
  obtain ⟨y, hy⟩ := h.target
  unfold Prog.to Val.to Prog.heldId Vnt.type
  cases hg : v.held with
  | none => simp only [Prog.metafuncTo, Val.metafuncTo, hg, if_true]
  | some g =>
    obtain ⟨x, hx⟩ := h.source hg
    exact h.answers.metafuncTo h.inv h.inj h.decays hx hy (h.held g hg) h.type h.cls

/-- C94: `canConvert` -/
theorem C94_canConvert (U : Outside) (cs : List Call) (v : Vnt) (const : Bool) (t : CType)
    (h : AsTypes nm U cs v (if const then .lrefConst else .lref) ⟨.none, t⟩) :
    let s := init.run nm cs
    s.canConvert nm U v const t = Val.canConvert (s.env nm U) v const t := by
  dsimp only
  have e := C94_is U cs v const ⟨.none, t⟩ h
  dsimp only at e
  unfold Prog.canConvert Val.canConvert
  rw [e]
  obtain ⟨y, hy⟩ := h.target
  cases Val.is ((init.run nm cs).env nm U) v const ⟨.none, t⟩ with
  | ok b =>
    simp only [Val.Ret.bind]
    split
    · rfl
    · unfold Prog.heldId Vnt.type
      cases hg : v.held with
      | none =>
        have hd := (h.inv.ok.phases rfl).1
        dsimp only
        unfold Reg.hasConverter Reg.hasConverterH
        dsimp only
        rw [Reg.withList_eq, Reg.withList, if_pos (by simp [Reg.hd])]
        rfl
      | some g =>
        obtain ⟨x, hx⟩ := h.source hg
        obtain ⟨r', hr⟩ := hx.hasConverter h.inv hy
        dsimp only
        rw [hr, h.answers.conv h.inv h.inj h.decays hx hy (h.held g hg) h.type]
        simp only [Val.Ret.lift, Option.isSome_map, reduceCtorEq, if_false]
  | _ => rfl

/-! two classes, the second derived from the first; two classes of the same text -/

private def plain : Traits := ⟨true, true, false, false, true, true, true, true, true, true, true⟩
private def cB : Base := ⟨1, .cls, 4, plain⟩
private def cD : Base := ⟨2, .cls, 8, plain⟩
private def tB : CType := .base cB ⟨false, false⟩
private def tD : CType := .base cD ⟨false, false⟩
private def tI : CType := .base ⟨3, .integral, 4, plain⟩ ⟨false, false⟩
/-- no class has `classInfo()`; the converter succeeds; `answer` stands for what `classInfo()` would return -/
private def outside (answer : TypeId) (info : Bool) : Outside :=
  ⟨fun _ => info, fun _ a => (answer, a), fun a => a + 100, fun _ _ => false, fun n => ⟨n, .functor, fun _ => .returns false false⟩⟩
/-- a variant that holds a `D`, in place at 500 -/
private def vD : Vnt := ⟨some ⟨false, tD⟩, 500, 0⟩
/-- `D` derives from `B`, with the base at offset 16; a converter from `D` to `int` -/
private def defs : List Call :=
  [.cls World.globalNs ['B'] ⟨.none, tB⟩, .cls World.globalNs ['D'] ⟨.none, tD⟩, .base 3 ⟨.none, tB⟩ (· + 16), .conv ⟨.none, tD⟩ ⟨.none, tI⟩ 0 7]
/-- a text that does not tell `B` and `D` apart -/
private def same (T : RType) : Str :=
  if T = ⟨.lref, tD⟩ then ['&'] else if T = ⟨.none, tB⟩ ∨ T = ⟨.none, tD⟩ then ['X'] else ['?']

/-- C94, what it needs: of two types with the same text a look through ids takes the one for the other; looking at types does
    not. -/
theorem C94_same_text_false : ∃ (nm : RType → Str) (U : Outside) (cs : List Call) (v : Vnt) (T : RType), (∀ S, nm S ≠ []) ∧
    (∀ S ∈ asked v .lref T, .idOf S ∈ cs) ∧ (∀ b a, U.dyn b a = (0, a)) ∧
    let s := init.run nm cs
    s.is nm U v false T = .ok true ∧ Val.is (s.env nm U) v false T = .ok false := by
  refine ⟨same, outside 0 false, (asked vD .lref ⟨.none, tB⟩).map .idOf, vD, ⟨.none, tB⟩, ?_, fun S hS => List.mem_map_of_mem hS, fun _ _ => rfl, by decide +kernel⟩
  intro S
  unfold same
  split
  · decide
  · split <;> decide

/-- the calls, and the ids a look asks for -/
private def looking (cs : List Call) (T : RType) : List Call := cs ++ (asked vD .lref T).map .idOf

/-- C94, what it needs: a `classInfo()` that answers with a number that was never given out as an id is undefined behaviour,
    nothing is checked; looking at types finds no class. -/
theorem C94_answer_false : ∃ (nm : RType → Str) (U : Outside) (cs : List Call) (v : Vnt) (T : RType), Function.Injective nm ∧
    (∀ S ∈ asked v .lref T, .idOf S ∈ cs) ∧
    let s := init.run nm cs
    s.is nm U v false T = .ub ∧ Val.is (s.env nm U) v false T = .ok false :=
  ⟨Ex.rname, outside 77 true, looking defs ⟨.none, tB⟩, vD, ⟨.none, tB⟩, Ex.rname_injective,
    fun _ hS => List.mem_append_right _ (List.mem_map_of_mem hS), by decide +kernel⟩

-- what is assumed holds, for `is`, `ref` and `to`, with classes and a converter defined
example (T : RType) (hT : T = ⟨.none, tB⟩ ∨ T = ⟨.lref, tB⟩ ∨ T = ⟨.none, tI⟩) : AsTypes Ex.rname (outside 0 false) (looking defs T) vD .lref T where
  texts := Ex.rname_ne
  told := fun _ _ _ _ e => Ex.rname_injective e
  asks := fun _ hS => List.mem_append_right _ (List.mem_map_of_mem hS)
  held := by intro h e; cases e; decide
  type := by rcases hT with rfl | rfl | rfl <;> decide
  dyn := fun _ _ => ⟨_, rfl⟩
-- the `D` is seen as a `B`, at the offset of the base, and converts to `int` with the registered function
example :
    (init.run Ex.rname (looking defs ⟨.none, tB⟩)).is Ex.rname (outside 0 false) vD false ⟨.none, tB⟩ = .ok true ∧
    (init.run Ex.rname (looking defs ⟨.lref, tB⟩)).reference Ex.rname (outside 0 false) vD .ref tB = .ok 516 ∧
    (let s := init.run Ex.rname (looking defs ⟨.none, tI⟩)
     s.to Ex.rname (outside 0 false) vD false tI = .ok (.converted 7 500) ∧ s.canConvert Ex.rname (outside 0 false) vD false tI = .ok true) ∧
    -- not after the converter is unregistered
    (let s := init.run Ex.rname (looking (defs ++ [.unconv ⟨.none, tD⟩ ⟨.none, tI⟩]) ⟨.none, tI⟩)
     s.to Ex.rname (outside 0 false) vD false tI = .throw .badVariantConvert ∧ s.canConvert Ex.rname (outside 0 false) vD false tI = .ok false) := by
  decide +kernel

end Rtti.Props
