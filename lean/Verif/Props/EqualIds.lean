import Verif.Lemmas.VariantIds
import Verif.Lemmas.CType
import Verif.Lemmas.Value
import Verif.Model.EqualIds
import Verif.Props.VariantIds
/-
C96: comparing and hashing variants through type ids, as the code does it, is comparing by the types, as in `Model/Equal.lean`.
-/
set_option autoImplicit false
namespace Rtti.Props
open Rtti Spec ClassFind
open Rtti.Val (Vnt Cmp Buf Held)

variable {nm : RType → Str}

/-- C96: what is assumed of the types `Ts`: their ids were asked for, they are not `void`; the types named by the calls are told
    apart by their texts. -/
structure Asked (nm : RType → Str) (cs : List Call) (Ts : List RType) : Prop where
  texts : ∀ T, nm T ≠ []
  told : ToldApart nm cs
  asks : ∀ T ∈ Ts, .idOf T ∈ cs
  void : ∀ T ∈ Ts, Reg.isVoid ⟨.none, T.t.fullDecay⟩ = false

section
variable {cs : List Call} {Ts : List RType} (h : Asked nm cs Ts)
include h

theorem Asked.inv : Inv nm (init.run nm cs) := (Inv.init nm).run h.texts _

theorem Asked.inj (S S' : RType) (hS : AsTypes.P cs S) (hS' : AsTypes.P cs S') (e : nm S = nm S') : S = S' :=
  h.told S hS S' hS' e

theorem Asked.decays : (init.run nm cs).reg.Decays (AsTypes.P cs) :=
  Inv.decays h.texts h.inj _
    (fun c hc T hT => ⟨List.mem_append_left _ (List.mem_flatMap.2 ⟨c, hc, hT⟩),
      List.mem_append_right _ (List.mem_map.2 ⟨T, List.mem_flatMap.2 ⟨c, hc, hT⟩, rfl⟩)⟩)
    (Inv.init nm) ⟨fun _ _ h => (nomatch h), fun _ _ _ h => (nomatch h)⟩

theorem Asked.knows {S : RType} (hS : S ∈ Ts) : ∃ x, Knows nm (init.run nm cs) S x := by
  obtain ⟨k, hk⟩ := asked_held h.texts (h.asks S hS) (void_decT (h.void S hS))
  exact h.inv.knows h.inj h.decays hk (h.void S hS)

theorem Asked.conv (U : Outside) {S T : RType} (hS : S ∈ Ts) (hT : T ∈ Ts) {x y : Info} (a : Knows nm (init.run nm cs) S x)
    (b : Knows nm (init.run nm cs) T y) :
    ((init.run nm cs).env nm U).conv S.t.fullDecay T.t.fullDecay = (itemAt (init.run nm cs).reg (x.decay, y.decay)).map U.fns := by
  have A : Answers nm { U with dyn := fun _ a => (0, a) } (init.run nm cs) ⟨none, 0, 0⟩ :=
    ⟨fun _ _ e => (nomatch e), fun _ _ => .inl rfl⟩
  exact A.conv h.inv h.inj h.decays a b (h.void S hS) (h.void T hT)

theorem Asked.convertCompare (U : Outside) (C : Cmp) {S T : RType} (hS : S ∈ Ts) (hT : T ∈ Ts) (a x : Addr) (b : Buf) :
    (init.run nm cs).convertCompare U C ((init.run nm cs).idNow nm S) ((init.run nm cs).idNow nm T) T.t a x b =
      Val.convertCompare ((init.run nm cs).env nm U) C S.t T.t a x b := by
  obtain ⟨p, hp⟩ := h.knows hS
  obtain ⟨q, hq⟩ := h.knows hT
  obtain ⟨r', hr⟩ := hp.convert h.inv hq
  unfold Prog.convertCompare Val.convertCompare
  rw [h.conv U hS hT hp hq, hr]
  cases itemAt (init.run nm cs).reg (p.decay, q.decay) <;> rfl

theorem Asked.has (U : Outside) {S T : RType} (hS : S ∈ Ts) (hT : T ∈ Ts) :
    ∃ r', (init.run nm cs).reg.hasConverter ((init.run nm cs).idNow nm S) ((init.run nm cs).idNow nm T) =
      .val (r', (((init.run nm cs).env nm U).conv S.t.fullDecay T.t.fullDecay).isSome) := by
  obtain ⟨p, hp⟩ := h.knows hS
  obtain ⟨q, hq⟩ := h.knows hT
  obtain ⟨r', hr⟩ := hp.hasConverter h.inv hq
  rw [h.conv U hS hT hp hq, hr, Option.isSome_map]
  exact ⟨_, rfl⟩

end

/-- nothing converts from or to no type -/
theorem has_zero (r : Reg) (a b : TypeId) (h : a = 0 ∨ b = 0) : ∃ r', r.hasConverter a b = .val (r', false) := by
  unfold Reg.hasConverter Reg.hasConverterH
  dsimp only
  rw [Reg.withList_eq, Reg.withList, if_pos (by rcases h with rfl | rfl <;> simp [Reg.hd])]
  exact ⟨_, rfl⟩

theorem held_isArray (h : Held) : h.u.isArray = h.t.isArray := by
  unfold Held.u
  split
  · rfl
  · exact Val.kept_isArray _

/-- C96: `operator==` -/
theorem C96_equal (U : Outside) (C : Cmp) (cs : List Call) (v w : Vnt) (h : Asked nm cs (compared v w)) :
    let s := init.run nm cs
    s.equal nm U C v w = Val.equal (s.env nm U) C v w := by
  dsimp only
  unfold Prog.equal Val.equal Prog.heldId
  unfold compared at h
  cases hv : v.held with
  | none => cases hw : w.held <;> rfl
  | some g =>
    cases hw : w.held with
    | none => rfl
    | some k =>
      rw [hv, hw] at h
      dsimp only
      obtain ⟨x, hx⟩ := h.knows (S := k.type .lrefConst) (by simp)
      obtain ⟨y, hy⟩ := h.knows (S := g.type .lrefConst) (by simp)
      rw [hx.compat h.inv hy, hx.seen h.inv, hy.seen h.inv]
      simp only [Val.Ret.bind, Knows.same h.inv h.inj h.decays hx hy]
      cases Val.compat (k.type .lrefConst) (g.type .lrefConst) with
      | ok c =>
        cases c with
        | false => rfl
        | true =>
          have e : (describe (k.type .lrefConst)).isArray = k.t.isArray := by
            rw [describe_isArray]
            show (Val.addConst k.u).isArray = _
            rw [Val.addConst_isArray, held_isArray]
          simp only [Bool.not_true, Bool.false_eq_true, if_false, Bool.true_and, decide_eq_true_eq, e]
      | _ => rfl

/-- the types whose ids are asked for by `eq` -/
def comparedWith (v : Vnt) (t : CType) : List RType :=
  compared v ⟨some ⟨true, Val.addConst t⟩, 0, 0⟩ ++ (match v.held with | none => [] | some h => [h.type .none]) ++ [⟨.none, t⟩]

theorem Asked.sub {cs : List Call} {Ts Ts' : List RType} (h : Asked nm cs Ts) (hs : ∀ T ∈ Ts', T ∈ Ts) : Asked nm cs Ts' :=
  ⟨h.texts, h.told, fun T hT => h.asks T (hs T hT), fun T hT => h.void T (hs T hT)⟩

/-- C96: `eq`, with what happens to the temporaries -/
theorem C96_eq (U : Outside) (C : Cmp) (cs : List Call) (v : Vnt) (t : CType) (x : Addr) (h : Asked nm cs (comparedWith v t)) :
    let s := init.run nm cs
    s.eq nm U C v t x = Val.eq (s.env nm U) C v t x := by
  dsimp only
  have e := C96_equal U C cs v ⟨some ⟨true, Val.addConst t⟩, 0, x⟩ (h.sub fun T hT => List.mem_append_left _ (List.mem_append_left _ hT))
  dsimp only at e
  unfold Prog.eq Val.eq
  rw [e]
  cases Val.equal ((init.run nm cs).env nm U) C v ⟨some ⟨true, Val.addConst t⟩, 0, x⟩ with
  | ok b =>
    cases b with
    | true => rfl
    | false =>
      unfold Prog.heldId
      cases hv : v.held with
      | none =>
        obtain ⟨r1, h1⟩ := has_zero (init.run nm cs).reg 0 ((init.run nm cs).idNow nm ⟨.none, t⟩) (.inl rfl)
        obtain ⟨r2, h2⟩ := has_zero (init.run nm cs).reg ((init.run nm cs).idNow nm ⟨.none, t⟩) 0 (.inr rfl)
        dsimp only
        rw [h1, h2]
        rfl
      | some g =>
        have ms : (⟨.none, g.u⟩ : RType) ∈ comparedWith v t := by simp [comparedWith, hv, Held.type]
        have mt : (⟨.none, t⟩ : RType) ∈ comparedWith v t := by simp [comparedWith]
        obtain ⟨r1, h1⟩ := h.has U ms mt
        obtain ⟨r2, h2⟩ := h.has U mt ms
        have c1 := h.convertCompare U C ms mt v.access x .stack
        obtain ⟨p, hp⟩ := h.knows ms
        have hs := hp.seen h.inv
        have ha : (describe ⟨.none, g.u⟩).isArray = g.t.isArray := by rw [describe_isArray]; exact held_isArray g
        have c2 := h.convertCompare U C mt ms x (if g.t.isArray then v.ptr else v.access) .heap
        have vt : (v.type .none).t = g.u := by unfold Vnt.type; rw [hv]; rfl
        have gt : g.type .none = ⟨.none, g.u⟩ := rfl
        dsimp only
        rw [vt, gt, h1, h2, c1, hs]
        simp only [andThen, Val.Ret.lift, Bool.false_eq_true, if_false, ha]
        rw [c2]
        dsimp only
        have first : (if (((init.run nm cs).env nm U).conv g.u.fullDecay t.fullDecay).isSome = true then
            Val.convertCompare ((init.run nm cs).env nm U) C g.u t v.access x .stack else (.ok none, [])) =
            Val.convertCompare ((init.run nm cs).env nm U) C g.u t v.access x .stack := by
          cases hc : ((init.run nm cs).env nm U).conv g.u.fullDecay t.fullDecay with
          | none => simp only [Val.convertCompare, hc]; rfl
          | some c => rfl
        rw [first]
        obtain ⟨r, l⟩ := Val.convertCompare ((init.run nm cs).env nm U) C g.u t v.access x .stack
        cases r with
        | ok o =>
          cases o with
          | some r => rfl
          | none =>
            dsimp only
            cases hc : (((init.run nm cs).env nm U).conv t.fullDecay g.u.fullDecay).isSome with
            | false => rfl
            | true =>
              simp only [Bool.not_true, Bool.false_eq_true, if_false, if_true]
              obtain ⟨r', l'⟩ := Val.convertCompare ((init.run nm cs).env nm U) C t g.u x (if g.t.isArray = true then v.ptr else v.access) .heap
              cases r' with
              | ok o => cases o <;> rfl
              | _ => rfl
        | _ => rfl
  | _ => rfl

/-- C96: the hash -/
theorem C96_hash (C : Cmp) (H : List Nat → Nat) (cs : List Call) (v : Vnt)
    (h : Asked nm cs (match v.held with | none => [] | some g => [g.type .none])) :
    (init.run nm cs).hash nm C H v = .ok (Val.hash C H v) := by
  unfold Prog.hash Val.hash Prog.heldId
  cases hv : v.held with
  | none => rfl
  | some g =>
    rw [hv] at h
    obtain ⟨p, hp⟩ := h.knows (S := g.type .none) (by simp)
    dsimp only
    rw [hp.seen h.inv, if_neg nofun]
    have ha : (describe (g.type .none)).isArray = g.t.isArray := by rw [describe_isArray]; exact held_isArray g
    simp only [Val.Ret.bind, ha]
    rfl

/-! variants that hold an `int`, a class, an array; a converter between the class and `int` -/

private def plain : Traits := ⟨true, true, false, false, true, true, true, true, true, true, true⟩
private def tI : CType := .base ⟨3, .integral, 4, plain⟩ ⟨false, false⟩
private def tK : CType := .base ⟨1, .cls, 8, plain⟩ ⟨false, false⟩
private def tL : CType := .base ⟨2, .cls, 4, plain⟩ ⟨false, false⟩
private def outside : Outside :=
  ⟨fun _ => false, fun _ a => (0, a), fun a => a + 100, fun _ _ => false, fun n => ⟨n, .functor, fun _ => .returns false false⟩⟩
/-- objects are equal if their addresses end in the same digit; what converter 7 makes equals the object at 20; memory holds its addresses -/
private def cmp : Cmp := ⟨fun _ a b => some (a % 10 == b % 10), fun _ a fn _ => some (fn == 7 && a == 20), fun a => a⟩
/-- a class, at 500; an `int`, at 600; another class, at 603; the array of two `int`s at 700 -/
private def vK : Vnt := ⟨some ⟨false, tK⟩, 500, 0⟩
private def vI : Vnt := ⟨some ⟨false, tI⟩, 600, 0⟩
private def vL : Vnt := ⟨some ⟨false, tL⟩, 603, 0⟩
private def vA : Vnt := ⟨some ⟨false, .arr 2 tI⟩, 650, 700⟩
private def conv : List Call := [.conv ⟨.none, tK⟩ ⟨.none, tI⟩ 0 7]

private theorem asks (cs : List Call) (Ts : List RType) (hv : ∀ T ∈ Ts, Reg.isVoid ⟨.none, T.t.fullDecay⟩ = false) :
    Asked Ex.rname (cs ++ Ts.map .idOf) Ts :=
  ⟨Ex.rname_ne, fun _ _ _ _ e => Ex.rname_injective e, fun _ hT => List.mem_append_right _ (List.mem_map_of_mem hT), hv⟩

/-- C96, what it needs: of two classes with the same text `operator==` takes the one for the other and reads an object as what it
    is not; by the types the variants are different. -/
theorem C96_same_text_false : ∃ (nm : RType → Str) (U : Outside) (C : Cmp) (cs : List Call) (v w : Vnt), (∀ S, nm S ≠ []) ∧
    (∀ T ∈ compared v w, .idOf T ∈ cs) ∧ (∀ T ∈ compared v w, Reg.isVoid ⟨.none, T.t.fullDecay⟩ = false) ∧
    let s := init.run nm cs
    s.equal nm U C v w = .ub ∧ Val.equal (s.env nm U) C v w = .ok false :=
  ⟨fun _ => ['X'], outside, cmp, (compared vK vL).map .idOf, vK, vL, fun _ => nofun, fun _ hT => List.mem_map_of_mem hT, by decide, by decide +kernel⟩

-- what is assumed holds
example : Asked Ex.rname (conv ++ (compared vK vI).map .idOf) (compared vK vI) := asks _ _ (by decide)
example : Asked Ex.rname (conv ++ (comparedWith vK tI).map .idOf) (comparedWith vK tI) := asks _ _ (by decide)
example : Asked Ex.rname (conv ++ [⟨.none, .arr 2 tI⟩].map .idOf) [⟨.none, .arr 2 tI⟩] := asks _ _ (by decide)
-- a class is no `int`; two `int`s are compared; `eq` converts, and the other way round it allocates; the hash of an array is of its elements
example :
    (init.run Ex.rname ((compared vK vI).map .idOf)).equal Ex.rname outside cmp vK vI = .ok false ∧
    (init.run Ex.rname ((compared vI vI).map .idOf)).equal Ex.rname outside cmp vI ⟨some ⟨false, tI⟩, 610, 0⟩ = .ok true ∧
    (init.run Ex.rname (conv ++ (comparedWith vK tI).map .idOf)).eq Ex.rname outside cmp vK tI 20 = (.ok true, [.construct .stack, .destroy .stack]) ∧
    (init.run Ex.rname (conv ++ (comparedWith vK tI).map .idOf)).eq Ex.rname outside cmp vK tI 21 = (.ok false, [.construct .stack, .destroy .stack]) ∧
    (init.run Ex.rname (conv ++ (comparedWith vI tK).map .idOf)).eq Ex.rname outside cmp vI tK 21 =
      (.ok false, [.alloc, .construct .heap, .destroy .heap, .free]) ∧
    (init.run Ex.rname [.idOf ⟨.none, .arr 2 tI⟩]).hash Ex.rname cmp List.length vA = .ok 8 ∧
    (init.run Ex.rname [.idOf ⟨.none, .arr 2 tI⟩]).hash Ex.rname cmp (·.headD 0) vA = .ok 700 := by decide +kernel

end Rtti.Props
