import Verif.Model.CallIds
import Verif.Props.VariantIds
import Verif.Examples.Naming
/-
C95: calls, constructors, properties and members by name through type ids, as the code does them, do what the types tell, as in
`Model/Invoke.lean`.
-/
set_option autoImplicit false
namespace Rtti.Props
open Rtti Spec ClassFind
open Rtti.Val (Vnt Attr Access Arg Nest Fn Inst Property tag)

variable {nm : RType → Str}

/-- looks into the variant for the type are looks at types, however the variant is reached -/
def Fits (nm : RType → Str) (U : Outside) (cs : List Call) (v : Vnt) (T : RType) : Prop := ∀ a, AsTypes nm U cs v a T

/-- an argument and a parameter: the types a look for the parameter asks for, in the argument and, if that is a variant, in it -/
structure ArgFits (nm : RType → Str) (U : Outside) (cs : List Call) (N : Nest) (a : Arg) (p : RType) : Prop where
  cls : N.vt.kind = .cls
  variant : Fits nm U cs a.value (clsType N.vt)
  ref : Fits nm U cs a.value ⟨.lref, .base N.vt ⟨false, false⟩⟩
  cref : Fits nm U cs a.value ⟨.lref, .base N.vt ⟨true, false⟩⟩
  value : ∀ w, (w = a.value ∨ ∃ x, w = N.inner x) → Fits nm U cs w ⟨.none, p.t.decay⟩
  object : ∀ w, (w = a.value ∨ ∃ x, w = N.inner x) → Fits nm U cs w ⟨.lref, p.t.decay⟩
  const : ∀ w, (w = a.value ∨ ∃ x, w = N.inner x) → Fits nm U cs w ⟨.lref, Val.addConst p.t.decay⟩

/-- an instance and the class of a member -/
structure ObjFits (nm : RType → Str) (U : Outside) (cs : List Call) (v : Vnt) (b : Base) : Prop where
  ref : ∀ c, Fits nm U cs v ⟨.lref, .base b ⟨c, false⟩⟩
  ptr : ∀ c, Fits nm U cs v ⟨.none, .ptr ⟨false, false⟩ (.base b ⟨c, false⟩)⟩

section
variable {U : Outside} {cs : List Call} {N : Nest}

private theorem data_eq {v : Vnt} {t : CType} (h : Fits nm U cs v ⟨.lref, t⟩) (h' : Fits nm U cs v ⟨.lref, Val.addConst t⟩) (const : Bool) :
    (init.run nm cs).data nm U v const t = Val.data ((init.run nm cs).env nm U) v const t := by
  unfold Prog.data Val.data
  cases const
  · rw [show (init.run nm cs).reference nm U v (if false = true then Access.refConst else .ref) t = _ from C94_reference U cs v .ref t (h _)]; rfl
  · rw [show (init.run nm cs).reference nm U v (if true = true then Access.refConst else .ref) t = _ from C94_reference U cs v .refConst t (h' _)]; rfl

private theorem to_eq {v : Vnt} {t : CType} (h : Fits nm U cs v ⟨.none, t⟩) (const : Bool) :
    (init.run nm cs).to nm U v const t = Val.to ((init.run nm cs).env nm U) v const t := C94_to U cs v const t (h _)

/-- what is known about the type a variant shows -/
private theorem seen_eq {v : Vnt} {T : RType} (h : Fits nm U cs v T) :
    ∃ o, (init.run nm cs).seen ((init.run nm cs).heldId nm v .none) = .ok o ∧
      ((v.held = none ∧ o.desc.isClass = false ∧ o.desc.isClassPtr = false ∧ o.decay = 0) ∨
       ∃ g, v.held = some g ∧ v.type .none = g.type .none ∧ o.desc = describe (g.type .none) ∧
        ∃ x, Knows nm (init.run nm cs) (g.type .none) x ∧ o.decay = x.decay) := by
  have h := h .none
  unfold Prog.heldId
  cases hg : v.held with
  | none =>
    refine ⟨⟨false, ['v', 'o', 'i', 'd'], ⟨0, 0, 0, Flag.Void⟩, 0⟩, ?_, .inl ⟨rfl, by decide, by decide, rfl⟩⟩
    unfold Prog.seen
    dsimp only
    rw [h.inv.ofId]
    rfl
  | some g =>
    obtain ⟨x, hx⟩ := h.source hg
    exact ⟨_, hx.seen h.inv, .inr ⟨g, rfl, by unfold Vnt.type; rw [hg], rfl, x, hx, rfl⟩⟩

private theorem isVariant_eq {a : Arg} (hk : N.vt.kind = .cls) (h : Fits nm U cs a.value (clsType N.vt)) :
    (init.run nm cs).isVariant nm N a = .ok (a.isVariant N) := by
  obtain ⟨o, e, d⟩ := seen_eq h
  have h' := h .none
  obtain ⟨y, hy⟩ := h'.target
  have hself : Reg.decT (clsType N.vt) = clsType N.vt := by
    simp [clsType, Reg.decT, CType.fullDecay, CType.decay, CType.removeAllCv, CType.removeCv, hk]
  have hyd : y.decay = (init.run nm cs).idNow nm (clsType N.vt) := by
    have := hy.dec
    rw [hself] at this
    exact (idNow_held (nm := nm) (void_decT (clsType_void hk)) this).symm
  unfold Prog.isVariant Arg.isVariant
  rw [e]
  simp only [Val.Ret.bind, Val.Ret.ok.injEq]
  rcases d with ⟨hn, -, -, hd⟩ | ⟨g, hg, -, -, x, hx, hd⟩
  · rw [hn, hd]
    simp only [decide_eq_false_iff_not]
    exact fun e => hy.pos e.symm
  · rw [hg, hd, ← hyd]
    dsimp only
    rw [decide_eq_decide, Knows.same h'.inv h'.inj h'.decays hx hy]
    have : (clsType N.vt).t.fullDecay = .base N.vt ⟨false, false⟩ := (RType.mk.inj hself).2
    rw [this]

private theorem resolve_eq {a : Arg} {p : RType} (h : ArgFits nm U cs N a p) (w : Bool) :
    (init.run nm cs).resolve nm U N a w = a.resolve ((init.run nm cs).env nm U) N w := by
  unfold Prog.resolve Arg.resolve
  rw [isVariant_eq h.cls h.variant]
  simp only [Val.Ret.bind]
  cases w
  · rw [show (init.run nm cs).reference nm U a.value (if false = true then Access.ref else .cref) (.base N.vt ⟨false, false⟩) = _ from
      C94_reference U cs a.value .cref _ (h.cref _)]
    rfl
  · rw [show (init.run nm cs).reference nm U a.value (if true = true then Access.ref else .cref) (.base N.vt ⟨false, false⟩) = _ from
      C94_reference U cs a.value .ref _ (h.ref _)]
    rfl

private theorem resolve_mem {E : Val.Env} {a : Arg} {w : Bool} {v : Vnt} (e : a.resolve E N w = .ok v) : v = a.value ∨ ∃ x, v = N.inner x := by
  unfold Arg.resolve at e
  split at e
  · generalize Val.reference E a.value _ _ = r at e
    cases r with
    | ok x => cases e; exact .inr ⟨x, rfl⟩
    | _ => cases e
  · cases e; exact .inl rfl

private theorem bind_congr {A B : Type} {x : Val.Ret A} {f g : A → Val.Ret B} (h : ∀ a, x = .ok a → f a = g a) : x.bind f = x.bind g := by
  cases x with
  | ok a => exact h a rfl
  | _ => rfl

end

/-- C95: an argument is read for a parameter as its type tells -/
theorem C95_argument (U : Outside) (cs : List Call) (N : Nest) (a : Arg) (p : RType) (h : a.empty = false → ArgFits nm U cs N a p) :
    let s := init.run nm cs
    s.argGet nm U N a p = a.get (s.env nm U) N p := by
  dsimp only
  unfold Prog.argGet Arg.get
  dsimp only
  cases he : a.empty with
  | true => rfl
  | false =>
    have h := h he
    simp only [Bool.false_eq_true, if_false]
    cases p.ref with
    | none =>
      dsimp only
      rw [resolve_eq h]
      refine bind_congr fun v hv => ?_
      rw [to_eq (h.value v (resolve_mem hv))]
    | lref =>
      dsimp only
      split
      · rw [resolve_eq h]
        refine bind_congr fun v hv => ?_
        rw [data_eq (h.object v (resolve_mem hv)) (h.const v (resolve_mem hv)), to_eq (h.value v (resolve_mem hv))]
      · split
        · rfl
        · rw [resolve_eq h]
          refine bind_congr fun v hv => ?_
          rw [show (init.run nm cs).reference nm U v .ref p.t.decay = _ from C94_reference U cs v .ref _ (h.object v (resolve_mem hv) _)]
    | rref =>
      dsimp only
      split
      · rfl
      · rw [resolve_eq h]
        refine bind_congr fun v hv => ?_
        rw [data_eq (h.object v (resolve_mem hv)) (h.const v (resolve_mem hv)), to_eq (h.value v (resolve_mem hv))]

section
variable {U : Outside} {cs : List Call} {N : Nest}

private theorem getAll_eq (ps : List RType) : ∀ {as : List Arg}, (∀ a ∈ as, ∀ p ∈ ps, a.empty = false → ArgFits nm U cs N a p) →
    (init.run nm cs).getAll nm U N ps as = Val.getAll ((init.run nm cs).env nm U) N ps as := by
  induction ps with
  | nil => intro as _; cases as <;> rfl
  | cons p ps ih =>
    intro as h
    cases as with
    | nil => rfl
    | cons a as =>
      unfold Prog.getAll Val.getAll
      rw [show (init.run nm cs).argGet nm U N a p = _ from C95_argument U cs N a p (h a List.mem_cons_self p List.mem_cons_self),
        ih fun a ha p hp => h a (List.mem_cons_of_mem _ ha) p (List.mem_cons_of_mem _ hp)]

private theorem pad_mem {args : List Arg} {a : Arg} (h : a ∈ Val.pad args) : a ∈ args ∨ a.empty = true := by
  unfold Val.pad at h
  rcases List.mem_append.1 (List.mem_of_mem_take h) with h | h
  · exact .inl h
  · rw [(List.mem_replicate.1 h).2]; exact .inr rfl

private theorem pack_mem {n : Nat} {args as : List Arg} (h : Val.pack n args = .ok as) : ∀ a ∈ as, a ∈ args ∨ a.empty = true := by
  unfold Val.pack at h
  split at h
  · cases h
  · cases h; exact fun a => pad_mem

private theorem packed {ps : List RType} {n : Nat} {args as : List Arg} (h : ∀ a ∈ args, ∀ p ∈ ps, ArgFits nm U cs N a p) (e : Val.pack n args = .ok as) :
    (init.run nm cs).getAll nm U N ps as = Val.getAll ((init.run nm cs).env nm U) N ps as := by
  refine getAll_eq ps fun a ha p hp he => ?_
  rcases pack_mem e a ha with h' | h'
  · exact h a h' p hp
  · rw [he] at h'; cases h'

private theorem object_eq {v : Vnt} {b : Base} (h : ObjFits nm U cs v b) (method isConst : Bool) :
    (init.run nm cs).object nm U b method isConst v = Val.object ((init.run nm cs).env nm U) b method isConst v := by
  obtain ⟨o, e, d⟩ := seen_eq (h.ref false)
  unfold Prog.object Val.object
  rw [e]
  simp only [Val.Ret.bind]
  rcases d with ⟨hn, d1, d2, -⟩ | ⟨g, hg, ht, hd, -⟩
  · rw [d1, d2, hn]; rfl
  · rw [hd, hg, ht, if_neg (show ¬ some g = none by nofun)]
    have hr : (init.run nm cs).reference nm U v (if isConst = true then .refConst else .ref) (.base b ⟨method, false⟩) =
        Val.reference ((init.run nm cs).env nm U) v (if isConst = true then .refConst else .ref) (.base b ⟨method, false⟩) := by
      cases isConst
      · exact C94_reference U cs v .ref _ (h.ref method _)
      · exact C94_reference U cs v .refConst _ (h.ref true _)
    rw [hr, to_eq (h.ptr method)]

end

/-- C95: static functions and constructors -/
theorem C95_static (U : Outside) (cs : List Call) (N : Nest) (f : Fn) (args : List Arg) (h : ∀ a ∈ args, ∀ p ∈ f.params, ArgFits nm U cs N a p) :
    let s := init.run nm cs
    s.staticInvoke nm U N f args = Val.staticInvoke (s.env nm U) N f args := by
  dsimp only
  unfold Prog.staticInvoke Val.staticInvoke
  exact bind_congr fun as e => by rw [packed h e]

/-- C95: member functions -/
theorem C95_member (U : Outside) (cs : List Call) (N : Nest) (f : Fn) (b : Base) (isConst : Bool) (v : Vnt) (args : List Arg)
    (h : ∀ a ∈ args, ∀ p ∈ f.params, ArgFits nm U cs N a p) (ho : ObjFits nm U cs v b) :
    let s := init.run nm cs
    s.memberInvoke nm U N f b isConst v args = Val.memberInvoke (s.env nm U) N f b isConst v args := by
  dsimp only
  unfold Prog.memberInvoke Val.memberInvoke
  refine bind_congr fun as e => ?_
  rw [object_eq ho]
  refine bind_congr fun o _ => ?_
  cases o with
  | none => rfl
  | some o => dsimp only; rw [packed h e]

/-- C95: methods -/
theorem C95_method (U : Outside) (cs : List Call) (N : Nest) (f : Fn) (i : Inst) (args : List Arg)
    (h : ∀ a ∈ i.arg :: args, ∀ p ∈ f.params, ArgFits nm U cs N a p) (ho : ∀ b, f.cls = some b → ObjFits nm U cs i.v b) :
    let s := init.run nm cs
    s.methodInvoke nm U N f i args = Val.methodInvoke (s.env nm U) N f i args := by
  dsimp only
  unfold Prog.methodInvoke Val.methodInvoke
  cases hc : f.cls with
  | none => exact C95_static U cs N f _ h
  | some b => exact C95_member U cs N f b i.isConst i.v args (fun a ha => h a (List.mem_cons_of_mem _ ha)) (ho b hc)

/-- the class a property belongs to, the types of its value and of the parameters of its functions -/
def propClass : Property → List Base
  | .static _ _ => []
  | .field b _ _ => [b]
  | .accessor b _ _ => [b]

def propParams : Property → List RType
  | .static t _ => [⟨.none, t⟩]
  | .field _ t _ => [⟨.none, t⟩]
  | .accessor _ _ st => st.params

/-- C95: reading properties -/
theorem C95_get (U : Outside) (cs : List Call) (N : Nest) (p : Property) (i : Option Vnt) (h : ∀ v ∈ i, ∀ b ∈ propClass p, ObjFits nm U cs v b) :
    let s := init.run nm cs
    s.getProperty nm U N p i = p.get (s.env nm U) N i := by
  dsimp only
  unfold Prog.getProperty Property.get
  cases i with
  | none => rfl
  | some v =>
    cases p with
    | static t x => rfl
    | field b t off => dsimp only; rw [object_eq (h v rfl b List.mem_cons_self)]; rfl
    | accessor b g st =>
      dsimp only
      rw [show (init.run nm cs).memberInvoke nm U N g b true v [] = _ from
        C95_member U cs N g b true v [] (fun _ h => (nomatch h)) (h v rfl b List.mem_cons_self)]

/-- C95: writing properties -/
theorem C95_set (U : Outside) (cs : List Call) (N : Nest) (p : Property) (i : Option (Bool × Vnt)) (a : Arg)
    (h : ∀ v ∈ i, ∀ b ∈ propClass p, ObjFits nm U cs v.2 b) (ha : ∀ q ∈ propParams p, ArgFits nm U cs N a q) :
    let s := init.run nm cs
    s.setProperty nm U N p i a = p.set (s.env nm U) N i a := by
  dsimp only
  have nv : ∀ t, ArgFits nm U cs N a ⟨.none, t⟩ → (init.run nm cs).newValue nm U N t a = Val.newValue ((init.run nm cs).env nm U) N t a := by
    intro t h
    unfold Prog.newValue Val.newValue
    rw [show (init.run nm cs).argGet nm U N a ⟨.none, t⟩ = _ from C95_argument U cs N a ⟨.none, t⟩ fun _ => h]
    rfl
  unfold Prog.setProperty Property.set
  cases i with
  | none =>
    cases p with
    | static t x => dsimp only; rw [nv t (ha _ List.mem_cons_self)]
    | _ => rfl
  | some iv =>
    obtain ⟨isConst, v⟩ := iv
    cases p with
    | static t x => rfl
    | field b t off =>
      have hb : ObjFits nm U cs v b := h _ rfl b List.mem_cons_self
      dsimp only
      obtain ⟨o, e, d⟩ := seen_eq (hb.ref false)
      rw [e, nv t (ha _ List.mem_cons_self), object_eq hb]
      rcases d with ⟨hn, d1, d2, -⟩ | ⟨g, hg, ht, hd, -⟩
      · simp only [Val.Ret.bind, d1, d2, hn, Bool.false_eq_true, if_false, if_true]
      · simp only [Val.Ret.bind, hg, ht, hd, reduceCtorEq, if_false]; rfl
    | accessor b g st =>
      dsimp only
      rw [show (init.run nm cs).memberInvoke nm U N st b isConst v [a] = _ from
        C95_member U cs N st b isConst v [a] (fun a' h' q hq => by cases List.mem_singleton.1 h'; exact ha q hq) (h _ rfl b List.mem_cons_self)]

private theorem memberClass_eq {U : Outside} {cs : List Call} {v : Vnt} {T : RType} (h : Fits nm U cs v T) :
    (init.run nm cs).memberClass nm U v = Val.memberClass ((init.run nm cs).env nm U) v := by
  obtain ⟨o, e, d⟩ := seen_eq h
  have h' := h .none
  unfold Prog.memberClass Val.memberClass Val.metaClass
  rw [e]
  simp only [Val.Ret.bind]
  rcases d with ⟨hn, d1, d2, -⟩ | ⟨g, hg, ht, hd, -⟩
  · rw [d1, d2, hn]; rfl
  · rw [hd, hg, ht, if_neg (show ¬ some g = none by nofun)]
    split
    · cases hi : Val.classInfo ((init.run nm cs).env nm U) v with
      | ok j =>
        dsimp only
        rw [h'.inv.lookup _ (h'.answers.info hi)]
        rfl
      | _ => rfl
    · rfl

/-- C95: methods by name; what the method found needs is assumed for every method -/
theorem C95_named (U : Outside) (cs : List Call) (N : Nest) (fn : Ptr → Fn) (i : Inst) (name : Str) (args : List Arg) (T : RType) (hi : Fits nm U cs i.v T)
    (h : ∀ m, ∀ a ∈ i.arg :: args, ∀ p ∈ (fn m).params, ArgFits nm U cs N a p) (ho : ∀ m b, (fn m).cls = some b → ObjFits nm U cs i.v b) :
    let s := init.run nm cs
    s.invokeNamed nm U N fn i name args = Val.invokeNamed (s.env nm U) N fn i name args := by
  dsimp only
  unfold Prog.invokeNamed Val.invokeNamed
  rw [memberClass_eq hi]
  refine bind_congr fun c _ => bind_congr fun m _ => ?_
  cases m with
  | none => rfl
  | some m => exact C95_method U cs N (fn m) i args (h m) (ho m)

/-- C95: properties by name -/
theorem C95_named_get (U : Outside) (cs : List Call) (N : Nest) (pr : Ptr → Property) (v : Vnt) (name : Str) (T : RType) (hi : Fits nm U cs v T)
    (h : ∀ m, ∀ b ∈ propClass (pr m), ObjFits nm U cs v b) :
    let s := init.run nm cs
    s.getNamed nm U N pr v name = Val.getNamed (s.env nm U) N pr v name := by
  dsimp only
  unfold Prog.getNamed Val.getNamed
  rw [memberClass_eq hi]
  refine bind_congr fun c _ => bind_congr fun m _ => ?_
  cases m with
  | none => rfl
  | some m => exact C95_get U cs N (pr m) (some v) (fun w hw b hb => by cases hw; exact h m b hb)

theorem C95_named_set (U : Outside) (cs : List Call) (N : Nest) (pr : Ptr → Property) (v : Vnt) (name : Str) (a : Arg) (T : RType) (hi : Fits nm U cs v T)
    (h : ∀ m, ∀ b ∈ propClass (pr m), ObjFits nm U cs v b) (ha : ∀ m, ∀ q ∈ propParams (pr m), ArgFits nm U cs N a q) :
    let s := init.run nm cs
    s.setNamed nm U N pr v name a = Val.setNamed (s.env nm U) N pr v name a := by
  dsimp only
  unfold Prog.setNamed Val.setNamed
  rw [memberClass_eq hi]
  refine bind_congr fun c _ => bind_congr fun m _ => ?_
  cases m with
  | none => rfl
  | some m => exact C95_set U cs N (pr m) (some (false, v)) a (fun w hw b hb => by cases hw; exact h m b hb) (ha m)

/-! a class `D` derived from `B`, which has a member function `f(int)`; a converter from `D` to `int` -/

private def plain : Traits := ⟨true, true, false, false, true, true, true, true, true, true, true⟩
private def cB : Base := ⟨1, .cls, 4, plain⟩
private def cD : Base := ⟨2, .cls, 8, plain⟩
private def cV : Base := ⟨4, .cls, 24, plain⟩
private def tB : CType := .base cB ⟨false, false⟩
private def tD : CType := .base cD ⟨false, false⟩
private def tI : CType := .base ⟨3, .integral, 4, plain⟩ ⟨false, false⟩
private def outside : Outside :=
  ⟨fun _ => false, fun _ a => (0, a), fun a => a + 100, fun _ _ => false, fun n => ⟨n, .functor, fun _ => .returns false false⟩⟩
private def vD : Vnt := ⟨some ⟨false, tD⟩, 500, 0⟩
private def argD : Arg := ⟨false, ⟨some ⟨true, tD⟩, 700, 600⟩⟩
/-- variants in arguments hold a `D` -/
private def nest : Nest := ⟨cV, fun a => ⟨some ⟨false, tD⟩, a, 0⟩⟩
private def f : Fn := ⟨some cB, false, [⟨.none, tI⟩], none⟩
private def defs : List Call :=
  [.cls World.globalNs ['B'] ⟨.none, tB⟩, .cls World.globalNs ['D'] ⟨.none, tD⟩, .base 3 ⟨.none, tB⟩ (· + 16), .conv ⟨.none, tD⟩ ⟨.none, tI⟩ 0 7,
   .other (.createMethod 2 ['f'] true)]
private def targets : List RType :=
  [clsType cV, ⟨.lref, .base cV ⟨false, false⟩⟩, ⟨.lref, .base cV ⟨true, false⟩⟩, ⟨.none, tI⟩, ⟨.lref, tI⟩, ⟨.lref, Val.addConst tI⟩,
   ⟨.lref, tB⟩, ⟨.lref, Val.addConst tB⟩, ⟨.none, .ptr ⟨false, false⟩ tB⟩, ⟨.none, .ptr ⟨false, false⟩ (Val.addConst tB)⟩]
private def cs : List Call :=
  defs ++ ([⟨some ⟨false, tD⟩, 0, 0⟩, argD.value].flatMap fun v => targets.flatMap fun T =>
    [Attr.none, .lref, .rref, .lrefConst].flatMap fun a => asked v a T).map .idOf

private theorem fits {v : Vnt} {T : RType} (hv : v.held = some ⟨false, tD⟩ ∨ v.held = some ⟨true, tD⟩) (hT : T ∈ targets) :
    Fits Ex.rname outside cs v T := by
  intro a
  have hl : a ∈ [Attr.none, .lref, .rref, .lrefConst] := by cases a <;> decide
  refine ⟨Ex.rname_ne, fun _ _ _ _ e => Ex.rname_injective e, ?_, ?_, ?_, fun _ _ => ⟨_, rfl⟩⟩
  · intro S hS
    refine List.mem_append_right _ (List.mem_map_of_mem ?_)
    rcases hv with hv | hv
    · exact List.mem_flatMap.2 ⟨⟨some ⟨false, tD⟩, 0, 0⟩, List.mem_cons_self,
        List.mem_flatMap.2 ⟨T, hT, List.mem_flatMap.2 ⟨a, hl, by unfold asked at hS ⊢; rw [hv] at hS; exact hS⟩⟩⟩
    · exact List.mem_flatMap.2 ⟨argD.value, List.mem_cons_of_mem _ List.mem_cons_self,
        List.mem_flatMap.2 ⟨T, hT, List.mem_flatMap.2 ⟨a, hl, by unfold asked at hS ⊢; rw [hv] at hS; exact hS⟩⟩⟩
  · intro h e
    rcases hv with hv | hv <;> rw [hv] at e <;> cases e <;> cases a <;> decide
  · revert T; decide

private theorem argFits : ArgFits Ex.rname outside cs nest argD ⟨.none, tI⟩ := by
  have hw : ∀ w, (w = argD.value ∨ ∃ x, w = nest.inner x) → (w.held = some ⟨false, tD⟩ ∨ w.held = some ⟨true, tD⟩) := by
    rintro w (rfl | ⟨x, rfl⟩)
    · exact .inr rfl
    · exact .inl rfl
  exact ⟨rfl, fits (.inr rfl) (by decide), fits (.inr rfl) (by decide), fits (.inr rfl) (by decide), fun w h => fits (hw w h) (by decide),
    fun w h => fits (hw w h) (by decide), fun w h => fits (hw w h) (by decide)⟩

-- what `C95_named` and so the others assume: `f`, by name, on a variant that holds a `D`, with a `D` for the `int`
example : Fits Ex.rname outside cs vD ⟨.none, tI⟩ ∧ ArgFits Ex.rname outside cs nest argD ⟨.none, tI⟩ ∧ ObjFits Ex.rname outside cs vD cB :=
  ⟨fits (.inl rfl) (by decide), argFits, ⟨fun c => fits (.inl rfl) (by cases c <;> decide), fun c => fits (.inl rfl) (by cases c <;> decide)⟩⟩
-- through ids `f` is called, on the `B` in the `D`, with the converted argument
example : (init.run Ex.rname cs).invokeNamed Ex.rname outside nest (fun _ => f) ⟨false, vD, argD⟩ ['f'] [argD] =
    .ok (.called (some (.at 516)) [.value (.converted 7 600)]) := by
  decide +kernel

/-- a text that does not tell `B` and `D` apart -/
private def same (T : RType) : Str :=
  if T = ⟨.lref, tD⟩ then ['&'] else if T = ⟨.lref, tB⟩ then ['b'] else if T = ⟨.none, tB⟩ ∨ T = ⟨.none, tD⟩ then ['X'] else ['?']

/-- C95, what it needs: if two classes have the same text, a member function of the one is called on an object of the other. -/
theorem C95_same_text_false : ∃ (nm : RType → Str) (U : Outside) (cs : List Call) (N : Nest) (f : Fn) (b : Base) (v : Vnt), (∀ S, nm S ≠ []) ∧
    v.held = some ⟨false, tD⟩ ∧ b ≠ cD ∧
    let s := init.run nm cs
    s.memberInvoke nm U N f b false v [] = .ok (.called (some (.at v.access)) []) ∧
    Val.memberInvoke (s.env nm U) N f b false v [] = .throw .badVariantCast := by
  refine ⟨same, outside, [.idOf ⟨.none, tD⟩, .idOf ⟨.lref, tD⟩, .idOf ⟨.lref, tB⟩], nest, ⟨some cB, false, [], none⟩, cB, vD, ?_, rfl, by decide,
    by decide +kernel⟩
  intro S
  unfold same
  split
  · decide
  · split
    · decide
    · split <;> decide

end Rtti.Props
