import Verif.Props.ClassOrigin
import Verif.Props.VariantIds
import Verif.Examples.Naming
/-
C98: what a variant that holds an object of a class gives access to, in terms of the `_class` and `_base` calls alone.
-/
set_option autoImplicit false
namespace Rtti.Props
open Rtti Spec ClassFind
open Rtti.Val (Vnt Attr Access tag Ret Made)

variable {nm : RType → Str}

/-- C98: the object of the class `d` at the address `x` says that it is the object of the type `D` at `y`: by its `classInfo()`, or, without
    one, as it is -/
def SaysItIs (nm : RType → Str) (U : Outside) (s : Prog) (d : Base) (x : Addr) (D : RType) (y : Addr) : Prop :=
  if U.info d then x ≠ 0 ∧ U.dyn d x = (s.idNow nm D, y) else D = clsType d ∧ y = x

/-- C98: declarations lead from some type back to it, and from `D` to that type -/
def CircleFrom (nm : RType → Str) (cs : List Call) (D : RType) : Prop :=
  ∃ B fs f gs, Via nm cs D B fs ∧ Via nm cs B B (f :: gs)

section
variable (h0 : ∀ T, nm T ≠ []) {cs : List Call} (ht : ToldApart nm cs)
include h0 ht

theorem find_defines {T : RType} {c : Ptr} (hT : .idOf T ∈ cs) (hv : Reg.isVoid T = false) :
    (init.run nm cs).world.find ((init.run nm cs).idNow nm T) = some c ↔ Defines nm cs T c := by
  rw [← C97_class h0 cs T c hT hv ht]
  have i := (Inv.init nm).run h0 cs
  obtain ⟨k, hk⟩ := asked_held h0 hT hv
  obtain ⟨x, hx, -⟩ := i.ok.names _ _ (i.texts.held _ _ hk)
  rw [idNow_held hv hk, i.lookup k (.inr ⟨x, hx⟩)]
  exact ⟨fun h => by rw [h], fun h => Res.val.inj h⟩

/-- what the walks over the classes give, by the declarations -/
theorem walks_via {D T : RType} {d c : Ptr} (dD : Defines nm cs D d) (dT : Defines nm cs T c) (a : Addr) :
    (∃ fs, Via nm cs D T fs ∧ (init.run nm cs).world.inheritedFrom d (some c) = .val true ∧
      (init.run nm cs).world.cast d (some c) a = .val (applyCasts fs a)) ∨
    ((∀ fs, ¬Via nm cs D T fs) ∧ (init.run nm cs).world.inheritedFrom d (some c) = .val false ∧ (init.run nm cs).world.cast d (some c) a = .val 0) ∨
    (CircleFrom nm cs D ∧ (init.run nm cs).world.inheritedFrom d (some c) = .diverge ∧ (init.run nm cs).world.cast d (some c) a = .diverge) := by
  have i := (Inv.init nm).run h0 cs
  have hk := defines_kind h0 dD
  obtain ⟨c1, c2, c3⟩ := i.loose.castF c (init.run nm cs).world.depth d a
  obtain ⟨s1, s2, s3⟩ := i.loose.exact (own := World.isTarget c) (stop := (· = c)) (fun x => by by_cases h : c = x <;> simp [World.isTarget, h, eq_comm]) hk (N := (init.run nm cs).world.depth) (Nat.le_succ _)
  unfold World.cast World.inheritedFrom
  rw [i.loose.inheritedFromF] at c1 c2 c3 ⊢
  rcases e : Dfs.dfs (World.isTarget c) (World.graph (init.run nm cs).world) (init.run nm cs).world.depth d with _ | _ | u
  · rw [e] at c3 s3
    refine .inr (.inr ⟨?_, rfl, c3 rfl⟩)
    obtain ⟨p, m, w1, -, hb, w2⟩ := (s3 rfl).2
    have reach : ∀ {x y : Ptr}, Walks (init.run nm cs).world (· = c) x y → Reaches (init.run nm cs).world x y := by
      intro x y h
      induction h with
      | refl => exact .refl _
      | step _ h _ ih => exact .step h ih
    obtain ⟨B, fs, hB, v1⟩ := reaches_types h0 cs ht dD (reach w1)
    obtain ⟨B', f, hf', hB'⟩ := base_types h0 cs ht hB hb
    obtain ⟨B'', gs, hB'', v2⟩ := reaches_types h0 cs ht hB' (reach w2)
    rw [(C97_unique h0 cs ht hB'' hB).2 rfl] at v2
    exact ⟨B, fs, f, gs, v1, .step hB hf' v2⟩
  · rw [e] at c2 s2
    exact .inr (.inl ⟨fun fs hv => (s2.1 rfl).1 c ((C97_hierarchy h0 cs ht dD dT).2 ⟨fs, hv⟩) rfl, rfl, c2 rfl⟩)
  · rw [e] at c1
    obtain ⟨fs, p, ec⟩ := c1 rfl
    exact .inl ⟨fs, leftPath_via h0 cs ht dD dT p, rfl, ec⟩

end

theorem tag_cls {t : CType} {b : Base} (h : tag t = .cls b) : b.kind = .cls ∧ ∃ q, t = .base b q := by
  refine ⟨(tag_class (.inl h)).2, ?_⟩
  have no : ∀ (q : CV) (r : CType), (match CType.ptr q r with
      | .base b _ => if b.kind = Kind.cls then Val.Tag.cls b else .nope
      | .ptr _ (.base b _) => if b.kind = Kind.cls then .clsPtr b else .nope
      | _ => .nope) ≠ .cls b := by
    intro q r
    cases r with
    | base b' q' => dsimp only; split <;> nofun
    | ptr => nofun
    | arr => nofun
  cases t with
  | base b' q =>
    by_cases hf : b'.kind = .func
    · simp [tag, CType.fullDecay, CType.decay, CType.removeAllCv, hf] at h
    · simp only [tag, CType.fullDecay, CType.decay, if_neg hf, CType.removeAllCv] at h
      split at h
      · cases h; exact ⟨q, rfl⟩
      · cases h
  | ptr q t => exact absurd h (no _ _)
  | arr n t => exact absurd h (no _ _)

theorem tag_clsPtr {t : CType} {b : Base} (h : tag t = .clsPtr b) (ha : t.isArray = false) : b.kind = .cls ∧ ∃ q q', t = .ptr q (.base b q') := by
  refine ⟨(tag_class (.inr h)).2, ?_⟩
  cases t with
  | base b' q =>
    by_cases hf : b'.kind = .func
    · simp [tag, CType.fullDecay, CType.decay, CType.removeAllCv, hf] at h
    · simp only [tag, CType.fullDecay, CType.decay, if_neg hf, CType.removeAllCv] at h
      split at h <;> cases h
  | ptr q t =>
    cases t with
    | base b' q' =>
      simp only [tag, CType.fullDecay, CType.decay, CType.removeAllCv] at h
      split at h
      · cases h; exact ⟨q, q', rfl⟩
      · cases h
    | ptr => cases h
    | arr => cases h
  | arr n t => cases ha

/-- the variant holds an object of the class `d`, at `x`, or a pointer to it -/
def HoldsObject (U : Outside) (v : Vnt) (g : Val.Held) (d : Base) (x : Addr) : Prop :=
  (tag g.t = .cls d ∧ x = v.access) ∨ (tag g.t = .clsPtr d ∧ g.t.isArray = false ∧ x = U.load v.access)

section
variable {U : Outside} {cs : List Call} {v : Vnt} {g : Val.Held} {d b : Base} {D : RType} {x y : Addr}
variable (h0 : ∀ T, nm T ≠ []) (ht : ToldApart nm cs) (hg : v.held = some g) (hd : HoldsObject U v g d x)
variable (hs : SaysItIs nm U (init.run nm cs) d x D y)
include hg hd hs

theorem SaysItIs.info : Val.classInfo ((init.run nm cs).env nm U) v = .ok ((init.run nm cs).idNow nm D, y) := by
  unfold Val.classInfo
  rw [hg]
  dsimp only
  unfold SaysItIs at hs
  rcases hd with ⟨hd, rfl⟩ | ⟨hd, ha, rfl⟩
  · obtain ⟨-, q, e⟩ := tag_cls hd
    rw [hd, e]
    simp only [CType.isArray, Val.objectInfo, Prog.env, Bool.false_eq_true, if_false]
    by_cases hi : U.info d = true
    · rw [if_pos hi] at hs
      simp only [hi, if_true, if_neg hs.1, hs.2]
    · rw [if_neg hi] at hs
      simp only [hi, if_false, hs.1, hs.2, Bool.false_eq_true]
  · rw [hd, ha]
    simp only [Val.objectInfo, Prog.env, Bool.false_eq_true, if_false]
    by_cases hi : U.info d = true
    · rw [if_pos hi] at hs
      simp only [hi, if_true, if_neg hs.1, hs.2]
    · rw [if_neg hi] at hs
      simp only [hi, if_false, hs.1, hs.2, Bool.false_eq_true]

include h0 ht in
theorem SaysItIs.walks (hD : .idOf D ∈ cs) (vD : Reg.isVoid D = false) (hB : .idOf (clsType b) ∈ cs) (hb : b.kind = .cls) :
    (∃ fs x z, Defines nm cs D x ∧ Defines nm cs (clsType b) z ∧ Via nm cs D (clsType b) fs ∧
      Val.isImp ((init.run nm cs).env nm U) v b = .ok true ∧ Val.castImp ((init.run nm cs).env nm U) v b = .ok (applyCasts fs y)) ∨
    ((∀ fs x z, Defines nm cs D x → Defines nm cs (clsType b) z → ¬Via nm cs D (clsType b) fs) ∧
      Val.isImp ((init.run nm cs).env nm U) v b = .ok false ∧ Val.castImp ((init.run nm cs).env nm U) v b = .ok 0) ∨
    (CircleFrom nm cs D ∧ Val.isImp ((init.run nm cs).env nm U) v b = .diverge ∧ Val.castImp ((init.run nm cs).env nm U) v b = .diverge) := by
  have hi := hs.info hg hd
  have vB : Reg.isVoid (clsType b) = false := by simp [clsType, Reg.isVoid, hb]
  have fD := fun c => find_defines h0 ht (c := c) hD vD
  have fB := fun c => find_defines h0 ht (c := c) hB vB
  unfold Val.isImp Val.castImp
  rw [hi]
  simp only [Ret.bind, show ((init.run nm cs).env nm U).w = (init.run nm cs).world from rfl,
    show ((init.run nm cs).env nm U).tid b = (init.run nm cs).idNow nm (clsType b) from rfl]
  cases eD : (init.run nm cs).world.find ((init.run nm cs).idNow nm D) with
  | none =>
    refine .inr (.inl ⟨fun _ x _ hx => (by rw [← fD, eD] at hx; cases hx), ?_, ?_⟩) <;> split <;> rfl
  | some x =>
    have hv : (init.run nm cs).world.valid ((init.run nm cs).idNow nm D) = true := by
      unfold World.find at eD
      split at eD
      · assumption
      · cases eD
    rw [hv]
    simp only [Bool.not_true, Bool.false_eq_true, if_false]
    cases eB : (init.run nm cs).world.find ((init.run nm cs).idNow nm (clsType b)) with
    | none => exact .inr (.inl ⟨fun _ _ z _ hz => (by rw [← fB, eB] at hz; cases hz), rfl, rfl⟩)
    | some z =>
      have dD := (fD x).1 eD
      have dB := (fB z).1 eB
      dsimp only
      rcases walks_via h0 ht dD dB y with ⟨fs, h1, h2, h3⟩ | ⟨h1, h2, h3⟩ | ⟨h1, h2, h3⟩
      · exact .inl ⟨fs, x, z, dD, dB, h1, by rw [h2]; rfl, by rw [h3]; rfl⟩
      · exact .inr (.inl ⟨fun fs _ _ _ _ => h1 fs, by rw [h2]; rfl, by rw [h3]; rfl⟩)
      · exact .inr (.inr ⟨h1, by rw [h2]; rfl, by rw [h3]; rfl⟩)

end

/-- the object held and the type asked for are of different classes, and the description of the type shown is that of a class -/
theorem shown_class {g : Val.Held} {d b : Base} {a : Attr} {T : RType} (hd : tag g.t = .cls d) (hb : tag T.t = .cls b) (hne : d ≠ b) :
    (g.type a).t.fullDecay ≠ T.t.fullDecay ∧ (describe (g.type a)).isClass = true := by
  have ed : tag (g.type a).t = .cls d := by
    rw [← hd]; exact Val.tag_congr (by rw [Val.type_fullDecay, Val.u_fullDecay])
  constructor
  · intro e
    have := Val.tag_congr e
    rw [ed, hb] at this
    exact hne (by cases this; rfl)
  · obtain ⟨hk, q, e⟩ := tag_cls ed
    rw [describe_isClass, e]
    simp [CType.isPointer, CType.baseType, hk]

/-- the same for pointers -/
theorem shown_pointer {g : Val.Held} {d b : Base} {a : Attr} {T : RType} (hd : tag g.t = .clsPtr d) (ha : g.t.isArray = false) (hb : tag T.t = .clsPtr b)
    (hne : d ≠ b) : (g.type a).t.fullDecay ≠ T.t.fullDecay ∧ (describe (g.type a)).isClassPtr = true := by
  have ed : tag (g.type a).t = .clsPtr d := by
    rw [← hd]; exact Val.tag_congr (by rw [Val.type_fullDecay, Val.u_fullDecay])
  constructor
  · intro e
    have := Val.tag_congr e
    rw [ed, hb] at this
    exact hne (by cases this; rfl)
  · obtain ⟨hk, q, q', e⟩ := tag_clsPtr ed (by rw [Val.type_isArray, Val.u_isArray, ha])
    rw [Val.describe_isClassPtr, e]
    simp [CType.isPointer, CType.pointerArity, CType.baseType, hk]

/-- C98: `T` is the class `b`, if the variant holds an object, or the pointer to it, if it holds a pointer; `d` is another class. -/
def AskedFor (g : Val.Held) (d b : Base) (t : CType) : Prop :=
  d ≠ b ∧ ((tag g.t = .cls d ∧ tag t = .cls b) ∨ (tag g.t = .clsPtr d ∧ tag t = .clsPtr b))

/-- C98: `is` of another class than that of the object held (or pointed to), both named by the calls: true exactly if `_base`
    declarations lead from the class the object says it is of to the class asked for. -/
theorem C98_is (U : Outside) (cs : List Call) (v : Vnt) (const : Bool) (T : RType) (h : AsTypes nm U cs v (if const then .lrefConst else .lref) T)
    {g : Val.Held} {d b : Base} {D : RType} {x y : Addr} (hg : v.held = some g) (hd : HoldsObject U v g d x) (hb : AskedFor g d b T.t)
    (hc : Val.compat (g.type (if const then .lrefConst else .lref)) T = .ok true)
    (hs : SaysItIs nm U (init.run nm cs) d x D y) (hD : .idOf D ∈ cs) (vD : Reg.isVoid D = false) :
    ((∃ fs p q, Defines nm cs D p ∧ Defines nm cs (clsType b) q ∧ Via nm cs D (clsType b) fs) ∧ (init.run nm cs).is nm U v const T = .ok true) ∨
    ((∀ fs p q, Defines nm cs D p → Defines nm cs (clsType b) q → ¬Via nm cs D (clsType b) fs) ∧ (init.run nm cs).is nm U v const T = .ok false) ∨
    (CircleFrom nm cs D ∧ (init.run nm cs).is nm U v const T = .diverge) := by
  obtain ⟨hne, hb⟩ := hb
  have hb' : tag T.t = .cls b ∨ tag T.t = .clsPtr b := hb.imp (·.2) (·.2)
  have hB : .idOf (clsType b) ∈ cs := by
    refine h.asks _ (List.mem_append_right _ (List.mem_cons_of_mem _ ?_))
    rcases hb' with hb' | hb'
    · rw [hb', (tag_class (.inl hb')).1]; exact List.mem_cons_self
    · rw [hb', (tag_class (.inr hb')).1]; exact List.mem_cons_self
  have key : (init.run nm cs).is nm U v const T = Val.isImp ((init.run nm cs).env nm U) v b := by
    rw [C94_is U cs v const T h]
    unfold Val.is Val.metafuncIs Vnt.type
    rw [hg]
    rcases hb with ⟨hd', hb⟩ | ⟨hd', hb⟩
    · obtain ⟨n1, n2⟩ := shown_class (a := if const then .lrefConst else .lref) hd' hb hne
      simp only [reduceCtorEq, if_false, hc, Ret.bind, Bool.not_true, Bool.false_eq_true, if_neg n1, hb, n2, if_true]
    · have ha : g.t.isArray = false := by
        rcases hd with ⟨e, -⟩ | ⟨-, e, -⟩
        · rw [hd'] at e; cases e
        · exact e
      obtain ⟨n1, n2⟩ := shown_pointer (a := if const then .lrefConst else .lref) hd' ha hb hne
      simp only [reduceCtorEq, if_false, hc, Ret.bind, Bool.not_true, Bool.false_eq_true, if_neg n1, hb, n2, if_true]
  rw [key]
  rcases hs.walks h.texts h.told hg hd hD vD hB (tag_class hb').2 with ⟨fs, p, q, h1, h2, h3, h4, -⟩ | ⟨h1, h2, -⟩ | ⟨h1, h2, -⟩
  · exact .inl ⟨⟨fs, p, q, h1, h2, h3⟩, h4⟩
  · exact .inr (.inl ⟨h1, h2⟩)
  · exact .inr (.inr ⟨h1, h2⟩)

/-- C98: what `ref`, `cref`, `rref` give for the object found at an address: the object, if there is one; for pointers the pointer held, if it
    points there, and `bad_variant_cast` otherwise -/
def Given (v : Vnt) (t : CType) (p : Addr) : Ret Addr :=
  if p = 0 then .throw .badVariantCast
  else if t.isPointer then (if p = v.ptr then .ok v.self else .throw .badVariantCast)
  else .ok p

/-- C98: `ref`, `cref`, `rref` to such a class: what is at the address along `_base` declarations; without any, `bad_variant_cast`. -/
theorem C98_reference (U : Outside) (cs : List Call) (v : Vnt) (a : Access) (t : CType) (h : AsTypes nm U cs v a.attr (a.target t)) (hz : v.self ≠ 0)
    {g : Val.Held} {d b : Base} {D : RType} {x y : Addr} (hg : v.held = some g) (hd : HoldsObject U v g d x) (ht : t.isArray = false) (hb : AskedFor g d b t)
    (hc : Val.compat (g.type a.attr) (a.target t) = .ok true)
    (hs : SaysItIs nm U (init.run nm cs) d x D y) (hD : .idOf D ∈ cs) (vD : Reg.isVoid D = false) :
    (∃ fs p q, Defines nm cs D p ∧ Defines nm cs (clsType b) q ∧ Via nm cs D (clsType b) fs ∧
      (init.run nm cs).reference nm U v a t = Given v t (applyCasts fs y)) ∨
    ((∀ fs p q, Defines nm cs D p → Defines nm cs (clsType b) q → ¬Via nm cs D (clsType b) fs) ∧
      (init.run nm cs).reference nm U v a t = .throw .badVariantCast) ∨
    (CircleFrom nm cs D ∧ (init.run nm cs).reference nm U v a t = .diverge) := by
  obtain ⟨hne, hb⟩ := hb
  have et : tag (a.target t).t = tag t := by
    refine Val.tag_congr ?_
    cases a <;> first | rfl | exact Val.addConst_fullDecay t
  have hb' : tag (a.target t).t = .cls b ∨ tag (a.target t).t = .clsPtr b := by rw [et]; exact hb.imp (·.2) (·.2)
  have hB : .idOf (clsType b) ∈ cs := by
    refine h.asks _ (List.mem_append_right _ (List.mem_cons_of_mem _ ?_))
    rcases hb' with hb' | hb'
    · rw [hb', (tag_class (.inl hb')).1]; exact List.mem_cons_self
    · rw [hb', (tag_class (.inr hb')).1]; exact List.mem_cons_self
  have na : (a.target t).t.isArray = false := by
    rw [← ht]
    cases a <;> first | rfl | (cases t <;> rfl)
  have key : (init.run nm cs).reference nm U v a t = (Val.castImp ((init.run nm cs).env nm U) v b).bind (Given v t) := by
    rw [C94_reference U cs v a t h]
    unfold Val.reference Val.metafuncCast Val.castTo Vnt.type
    rw [hg]
    rcases hb with ⟨hd', hb⟩ | ⟨hd', hb⟩
    · obtain ⟨n1, n2⟩ := shown_class (a := a.attr) (T := a.target t) hd' (by rw [et]; exact hb) hne
      obtain ⟨-, q, e⟩ := tag_cls hb
      simp only [reduceCtorEq, if_false, hc, Ret.bind, Bool.not_true, Bool.false_eq_true, if_neg n1, et, hb, n2, if_true, na]
      cases Val.castImp ((init.run nm cs).env nm U) v b with
      | ok p => simp [Given, e, CType.isPointer]
      | _ => rfl
    · have ha : g.t.isArray = false := by
        rcases hd with ⟨e, -⟩ | ⟨-, e, -⟩
        · rw [hd'] at e; cases e
        · exact e
      obtain ⟨n1, n2⟩ := shown_pointer (a := a.attr) (T := a.target t) hd' ha (by rw [et]; exact hb) hne
      obtain ⟨-, q, q', e⟩ := tag_clsPtr hb ht
      simp only [reduceCtorEq, if_false, hc, Ret.bind, Bool.not_true, Bool.false_eq_true, if_neg n1, et, hb, n2, if_true, na]
      cases Val.castImp ((init.run nm cs).env nm U) v b with
      | ok p =>
        simp only [Ret.bind, Given, e, CType.isPointer, if_true]
        by_cases hp : p = 0
        · simp [hp, Ret.bind]
        · by_cases hq : p = v.ptr
          · simp [← hq, hp, Ret.bind, hz]
          · simp [hq, hp, Ret.bind]
      | _ => rfl
  rw [key]
  rcases hs.walks h.texts h.told hg hd hD vD hB (tag_class hb').2 with ⟨fs, p, q, h1, h2, h3, -, h4⟩ | ⟨h1, -, h2⟩ | ⟨h1, -, h2⟩
  · exact .inl ⟨fs, p, q, h1, h2, h3, by rw [h4]; rfl⟩
  · exact .inr (.inl ⟨h1, by rw [h2]; rfl⟩)
  · exact .inr (.inr ⟨h1, by rw [h2]; rfl⟩)

/-- C98: what `to` makes of the object found at an address: a pointer to it, or a copy, if it can be copied -/
def Copied (U : Outside) (t : CType) (p : Addr) : Ret Made :=
  if t.isPointer then .ok (.pointer p)
  else if Val.copyable t then (if U.copyThrows t.fullDecay p then .throw .user else .ok (.copyOf p))
  else .throw .runtimeError

/-- C98: what `to` does if there is no such object: what the converter makes of what is held, if there is one and it agrees -/
def Otherwise (c : Option Val.Conv) (a : Addr) : Ret Made :=
  match c with
  | none => .throw .badVariantConvert
  | some c =>
    match (runConverter c.kind (c.call a)).1 with
    | .returned true => .ok (.converted c.fn a)
    | .returned false => .throw .badVariantConvert
    | .exception => .throw .user

/-- C98: `to` such a class makes a copy of what is at the address along `_base` declarations; without any it is left to the converters. -/
theorem C98_to (U : Outside) (cs : List Call) (v : Vnt) (const : Bool) (t : CType)
    (h : AsTypes nm U cs v (if const then .lrefConst else .lref) ⟨.none, t⟩)
    {g : Val.Held} {d b : Base} {D : RType} {x y : Addr} (hg : v.held = some g) (hd : HoldsObject U v g d x) (ht : t.isArray = false) (hb : AskedFor g d b t)
    (hc : Val.compat (g.type (if const then .lrefConst else .lref)) ⟨.none, t⟩ = .ok true)
    (hs : SaysItIs nm U (init.run nm cs) d x D y) (hD : .idOf D ∈ cs) (vD : Reg.isVoid D = false) :
    let other := Otherwise (((init.run nm cs).env nm U).conv g.t.fullDecay t.fullDecay) v.access
    (∃ fs p q, Defines nm cs D p ∧ Defines nm cs (clsType b) q ∧ Via nm cs D (clsType b) fs ∧
      (init.run nm cs).to nm U v const t = if applyCasts fs y = 0 then other else Copied U t (applyCasts fs y)) ∨
    ((∀ fs p q, Defines nm cs D p → Defines nm cs (clsType b) q → ¬Via nm cs D (clsType b) fs) ∧ (init.run nm cs).to nm U v const t = other) ∨
    (CircleFrom nm cs D ∧ (init.run nm cs).to nm U v const t = .diverge) := by
  intro other
  obtain ⟨hne, hb⟩ := hb
  have hb' : tag t = .cls b ∨ tag t = .clsPtr b := hb.imp (·.2) (·.2)
  have hB : .idOf (clsType b) ∈ cs := by
    refine h.asks _ (List.mem_append_right _ (List.mem_cons_of_mem _ ?_))
    rcases hb' with hb' | hb'
    · rw [hb', (tag_class (.inl hb')).1]; exact List.mem_cons_self
    · rw [hb', (tag_class (.inr hb')).1]; exact List.mem_cons_self
  have ho : ((Val.convert ((init.run nm cs).env nm U) v.access (g.type (if const then .lrefConst else .lref)).t t).bind fun r =>
      match r with
      | some m => .ok m
      | none => .throw .badVariantConvert) = other := by
    show _ = Otherwise _ _
    unfold Val.convert Otherwise
    rw [Val.type_fullDecay, Val.u_fullDecay]
    cases ((init.run nm cs).env nm U).conv g.t.fullDecay t.fullDecay with
    | none => rfl
    | some c =>
      dsimp only
      cases (runConverter c.kind (c.call v.access)).1 with
      | returned r => cases r <;> rfl
      | exception => rfl
  have key : (init.run nm cs).to nm U v const t =
      (Val.castImp ((init.run nm cs).env nm U) v b).bind fun p => if p = 0 then other else Copied U t p := by
    rw [C94_to U cs v const t h, ← ho]
    unfold Val.to Val.metafuncTo Val.toCast Vnt.type
    rw [hg]
    rcases hb with ⟨hd', hb⟩ | ⟨hd', hb⟩
    · obtain ⟨n1, n2⟩ := shown_class (a := if const then .lrefConst else .lref) (T := ⟨.none, t⟩) hd' hb hne
      obtain ⟨-, q, e⟩ := tag_cls hb
      simp only [reduceCtorEq, if_false, hc, Ret.bind, Bool.true_and, decide_eq_true_eq, if_neg n1, hb, n2, if_true]
      cases Val.castImp ((init.run nm cs).env nm U) v b with
      | ok p =>
        simp only [Ret.bind]
        by_cases hp : p = 0
        · simp only [hp, if_true]; rfl
        · have np : t.isPointer = false := by rw [e]; rfl
          simp only [hp, if_false, Copied, np, Bool.false_eq_true, Val.copyConstruct, show ((init.run nm cs).env nm U).copyThrows = U.copyThrows from rfl]
          cases Val.copyable t with
          | false => rfl
          | true => cases U.copyThrows t.fullDecay p <;> rfl
      | _ => rfl
    · have ha : g.t.isArray = false := by
        rcases hd with ⟨e, -⟩ | ⟨-, e, -⟩
        · rw [hd'] at e; cases e
        · exact e
      obtain ⟨n1, n2⟩ := shown_pointer (a := if const then .lrefConst else .lref) (T := ⟨.none, t⟩) hd' ha hb hne
      obtain ⟨-, q, q', e⟩ := tag_clsPtr hb ht
      simp only [reduceCtorEq, if_false, hc, Ret.bind, Bool.true_and, decide_eq_true_eq, if_neg n1, hb, n2, if_true]
      cases Val.castImp ((init.run nm cs).env nm U) v b with
      | ok p =>
        simp only [Ret.bind]
        by_cases hp : p = 0
        · simp only [hp, if_true]; rfl
        · have np : t.isPointer = true := by rw [e]; rfl
          simp only [hp, if_false, Copied, np, if_true]
      | _ => rfl
  rw [key]
  rcases hs.walks h.texts h.told hg hd hD vD hB (tag_class hb').2 with ⟨fs, p, q, h1, h2, h3, -, h4⟩ | ⟨h1, -, h2⟩ | ⟨h1, -, h2⟩
  · exact .inl ⟨fs, p, q, h1, h2, h3, by rw [h4]; rfl⟩
  · exact .inr (.inl ⟨h1, by rw [h2]; rfl⟩)
  · exact .inr (.inr ⟨h1, by rw [h2]; rfl⟩)

/-! two classes, the second derived from the first at offset 16 -/

private def plain : Traits := ⟨true, true, false, false, true, true, true, true, true, true, true⟩
private def cB : Base := ⟨1, .cls, 4, plain⟩
private def cD : Base := ⟨2, .cls, 8, plain⟩
private def tB : CType := .base cB ⟨false, false⟩
private def tD : CType := .base cD ⟨false, false⟩
private def pB : CType := .ptr ⟨false, false⟩ tB
private def pD : CType := .ptr ⟨false, false⟩ tD
/-- no class has `classInfo()` -/
private def plainly : Outside := ⟨fun _ => false, fun _ a => (0, a), fun a => a + 100, fun _ _ => false, fun n => ⟨n, .functor, fun _ => .returns false false⟩⟩
/-- `B` has one, which answers with `id`, and 16 bytes before -/
private def byInfo (id : TypeId) : Outside := { plainly with info := fun b => b == cB, dyn := fun _ a => (id, a - 16) }
/-- a `D` at 500; a `B*` at 500 that points to 600 -/
private def vD : Vnt := ⟨some ⟨false, tD⟩, 500, 0⟩
private def vP : Vnt := ⟨some ⟨false, pB⟩, 500, 600⟩
private def calls (v : Vnt) (T : RType) : List Call :=
  [.cls World.globalNs ['B'] (clsType cB), .cls World.globalNs ['D'] (clsType cD), .base 3 (clsType cB) (· + 16)] ++ (asked v .lref T).map .idOf
private def idD : TypeId := (init.run Ex.rname (calls vP ⟨.lref, pD⟩)).idNow Ex.rname (clsType cD)

private theorem seen : ∃ o, (init.run Ex.rname (calls vP ⟨.lref, pD⟩)).reg.observe idD = .val o := by
  have h : (match (init.run Ex.rname (calls vP ⟨.lref, pD⟩)).reg.observe idD with | .val _ => true | _ => false) = true := by decide +kernel
  revert h
  cases (init.run Ex.rname (calls vP ⟨.lref, pD⟩)).reg.observe idD with
  | val o => exact fun _ => ⟨o, rfl⟩
  | _ => exact fun h => Bool.noConfusion h

-- what is assumed holds for the object
example (T : RType) (hT : T = ⟨.none, tB⟩ ∨ T = ⟨.lref, tB⟩) : AsTypes Ex.rname plainly (calls vD T) vD .lref T ∧
    HoldsObject plainly vD ⟨false, tD⟩ cD 500 ∧ AskedFor ⟨false, tD⟩ cD cB T.t ∧ Val.compat (Val.Held.type ⟨false, tD⟩ .lref) T = .ok true ∧
    SaysItIs Ex.rname plainly (init.run Ex.rname (calls vD T)) cD 500 (clsType cD) 500 ∧ .idOf (clsType cD) ∈ calls vD T :=
  ⟨{ texts := Ex.rname_ne
     told := fun _ _ _ _ e => Ex.rname_injective e
     asks := fun _ hS => List.mem_append_right _ (List.mem_map_of_mem hS)
     held := by intro h e; cases e; decide
     type := by rcases hT with rfl | rfl <;> decide
     dyn := fun _ _ => ⟨_, rfl⟩ },
   .inl ⟨by decide, rfl⟩, ⟨by decide, .inl ⟨by decide, by rcases hT with rfl | rfl <;> decide⟩⟩, by rcases hT with rfl | rfl <;> decide, ⟨rfl, rfl⟩,
   List.mem_append_right _ (List.mem_map_of_mem (by simp [asked, vD, show tag tD = .cls cD by decide]))⟩
-- and for the pointer, with `classInfo()`
example : AsTypes Ex.rname (byInfo idD) (calls vP ⟨.lref, pD⟩) vP .lref ⟨.lref, pD⟩ ∧ HoldsObject (byInfo idD) vP ⟨false, pB⟩ cB 600 ∧
    AskedFor ⟨false, pB⟩ cB cD pD ∧ Val.compat (Val.Held.type ⟨false, pB⟩ .lref) ⟨.lref, pD⟩ = .ok true ∧
    SaysItIs Ex.rname (byInfo idD) (init.run Ex.rname (calls vP ⟨.lref, pD⟩)) cB 600 (clsType cD) 584 ∧ .idOf (clsType cD) ∈ calls vP ⟨.lref, pD⟩ :=
  ⟨{ texts := Ex.rname_ne
     told := fun _ _ _ _ e => Ex.rname_injective e
     asks := fun _ hS => List.mem_append_right _ (List.mem_map_of_mem hS)
     held := by intro h e; cases e; decide
     type := by decide
     dyn := fun _ _ => seen },
   .inr ⟨by decide, rfl, rfl⟩, ⟨by decide, .inr ⟨by decide, by decide⟩⟩, by decide, ⟨by decide, rfl⟩,
   List.mem_append_right _ (List.mem_map_of_mem (by decide))⟩
-- the `D` is a `B`, found at the offset of the base; a `B` is no `D`; the `B*` is a `D*`, by `classInfo()`, but gives no access as one
example :
    (init.run Ex.rname (calls vD ⟨.none, tB⟩)).is Ex.rname plainly vD false ⟨.none, tB⟩ = .ok true ∧
    (init.run Ex.rname (calls vD ⟨.lref, tB⟩)).reference Ex.rname plainly vD .ref tB = .ok 516 ∧
    (let v : Vnt := ⟨some ⟨false, tB⟩, 500, 0⟩
     (init.run Ex.rname (calls v ⟨.lref, tD⟩)).reference Ex.rname plainly v .ref tD = .throw .badVariantCast) ∧
    (init.run Ex.rname (calls vP ⟨.lref, pD⟩)).is Ex.rname (byInfo idD) vP false ⟨.lref, pD⟩ = .ok true ∧
    (init.run Ex.rname (calls vP ⟨.lref, pD⟩)).reference Ex.rname (byInfo idD) vP .ref pD = .throw .badVariantCast := by decide +kernel
-- converted, the `D` gives a copy of its `B`, the `B*` the pointer to the `D`
example :
    (init.run Ex.rname (calls vD ⟨.none, tB⟩)).to Ex.rname plainly vD false tB = .ok (.copyOf 516) ∧
    (init.run Ex.rname (calls vP ⟨.none, pD⟩)).to Ex.rname (byInfo idD) vP false pD = .ok (.pointer 584) ∧
    (let v : Vnt := ⟨some ⟨false, tB⟩, 500, 0⟩
     (init.run Ex.rname (calls v ⟨.none, tD⟩)).to Ex.rname plainly v false tD = .throw .badVariantConvert) := by decide +kernel

end Rtti.Props
