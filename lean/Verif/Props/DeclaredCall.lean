import Verif.Props.CallIds
import Verif.Props.DeclaredAccess
/-
C99: the object a member function is called on, in terms of the `_class` and `_base` calls alone.
-/
set_option autoImplicit false
namespace Rtti.Props
open Rtti Spec ClassFind
open Rtti.Val (Vnt Attr Access Arg Nest Fn Inst tag Ret)

variable {nm : RType → Str}

private theorem tag_base {b : Base} (hb : b.kind = .cls) (q : CV) : tag (.base b q) = .cls b := by
  simp [tag, CType.fullDecay, CType.decay, CType.removeAllCv, CType.removeCv, hb]

private theorem tag_pointer {b : Base} (hb : b.kind = .cls) (q q' : CV) : tag (.ptr q (.base b q')) = .clsPtr b := by
  simp [tag, CType.fullDecay, CType.decay, CType.removeAllCv, CType.removeCv, hb]

private theorem reference_compat {E : Val.Env} {v : Vnt} {a : Access} {t : CType} {p : Addr} {g : Val.Held} (hg : v.held = some g)
    (h : Val.reference E v a t = .ok p) : Val.compat (g.type a.attr) (a.target t) = .ok true := by
  unfold Val.reference Val.metafuncCast Vnt.type at h
  rw [hg] at h
  simp only [reduceCtorEq, if_false] at h
  generalize Val.compat (g.type a.attr) (a.target t) = c at h
  cases c with
  | ok b => cases b <;> first | rfl | simp [Ret.bind] at h
  | _ => cases h

private theorem to_compat {E : Val.Env} {v : Vnt} {const : Bool} {t : CType} {m : Val.Made} {g : Val.Held} (hg : v.held = some g)
    (hc : E.conv g.t.fullDecay t.fullDecay = none)
    (h : Val.to E v const t = .ok m) : Val.compat (g.type (if const then .lrefConst else .lref)) ⟨.none, t⟩ = .ok true := by
  unfold Val.to Val.metafuncTo Vnt.type Val.convert at h
  rw [hg] at h
  simp only [reduceCtorEq, if_false, Val.type_fullDecay, Val.u_fullDecay, hc] at h
  generalize Val.compat (g.type (if const then .lrefConst else .lref)) ⟨.none, t⟩ = c at h
  cases c with
  | ok b => cases b <;> first | rfl | simp [Ret.bind] at h
  | _ => cases h

/-- C99: no converter makes pointers to the class out of the pointer held -/
def NoConverter (nm : RType → Str) (U : Outside) (cs : List Call) (g : Val.Held) (b : Base) : Prop :=
  g.t.isPointer = true → ∀ c, ((init.run nm cs).env nm U).conv g.t.fullDecay (CType.ptr ⟨false, false⟩ (.base b ⟨c, false⟩)).fullDecay = none

section
variable {U : Outside} {cs : List Call} {v : Vnt} {g : Val.Held} {d b : Base} {D : RType} {x y : Addr}

private theorem object_at (ho : ObjFits nm U cs v b) (hz : v.self ≠ 0) (hk : b.kind = .cls) (hg : v.held = some g) (hd : HoldsObject U v g d x)
    (hne : d ≠ b) (hs : SaysItIs nm U (init.run nm cs) d x D y) (hD : .idOf D ∈ cs) (vD : Reg.isVoid D = false) (hn : NoConverter nm U cs g b)
    {method isConst : Bool} {o : Option Val.Obj} (h : Val.object ((init.run nm cs).env nm U) b method isConst v = .ok o) :
    ∃ fs p q, Defines nm cs D p ∧ Defines nm cs (clsType b) q ∧ Via nm cs D (clsType b) fs ∧ applyCasts fs y ≠ 0 ∧ o = some (.at (applyCasts fs y)) := by
  unfold Val.object at h
  rw [hg, if_neg (by nofun)] at h
  rcases id hd with ⟨hd', -⟩ | ⟨hd', ha, -⟩
  · have n2 := (shown_class (a := .none) (T := clsType b) hd' (tag_base hk _) hne).2
    have e : v.type .none = g.type .none := by unfold Vnt.type; rw [hg]
    rw [e, if_pos n2] at h
    split at h
    · cases h
    · cases hr : Val.reference ((init.run nm cs).env nm U) v (if isConst then .refConst else .ref) (.base b ⟨method, false⟩) with
      | ok a =>
        rw [hr] at h
        cases h
        have hc := reference_compat hg hr
        have hA : AsTypes nm U cs v (if isConst then Access.refConst else .ref).attr
            ((if isConst then Access.refConst else .ref).target (.base b ⟨method, false⟩)) := by
          cases isConst
          · exact ho.ref method _
          · exact ho.ref true _
        have e := C94_reference U cs v (if isConst then .refConst else .ref) _ hA
        dsimp only at e
        rw [← e] at hr
        rcases C98_reference U cs v _ _ hA hz hg hd rfl ⟨hne, .inl ⟨hd', tag_base hk _⟩⟩ hc hs hD vD with ⟨fs, p, q, h1, h2, h3, h4⟩ | ⟨-, h4⟩ | ⟨-, h4⟩
        · rw [hr] at h4
          unfold Given at h4
          split at h4
          · cases h4
          · next hp => cases h4; exact ⟨fs, p, q, h1, h2, h3, hp, rfl⟩
        · rw [hr] at h4; cases h4
        · rw [hr] at h4; cases h4
      | _ => rw [hr] at h; cases h
  · have n2 := (shown_pointer (a := .none) (T := ⟨.none, .ptr ⟨false, false⟩ (.base b ⟨method, false⟩)⟩) hd' ha (tag_pointer hk _ _) hne).2
    obtain ⟨-, q, q', et⟩ := tag_clsPtr hd' ha
    have e : v.type .none = g.type .none := by unfold Vnt.type; rw [hg]
    have n1 : (describe (g.type .none)).isClass = false := by
      rw [Val.describe_isClassPtr] at n2
      rw [describe_isClass]
      simp only [Bool.and_eq_true] at n2
      rw [n2.2]; simp
    rw [e, n1, n2] at h
    simp only [Bool.false_eq_true, if_false, if_true] at h
    cases hr : Val.to ((init.run nm cs).env nm U) v isConst (.ptr ⟨false, false⟩ (.base b ⟨method, false⟩)) with
    | ok m =>
      rw [hr] at h
      have hv := hn (by rw [et]; rfl) method
      have hc := to_compat hg hv hr
      have hA := ho.ptr method (if isConst then .lrefConst else .lref)
      have e := C94_to U cs v isConst _ hA
      dsimp only at e
      rw [← e] at hr
      rcases C98_to U cs v isConst _ hA hg hd rfl ⟨hne, .inr ⟨hd', tag_pointer hk _ _⟩⟩ hc hs hD vD with ⟨fs, p, q, h1, h2, h3, h4⟩ | ⟨-, h4⟩ | ⟨-, h4⟩
      · rw [hr, hv] at h4
        split at h4
        · cases h4
        · next hp =>
          cases h4
          simp only [Ret.bind, Val.pointee, Val.Obj.at.injEq, if_neg hp] at h
          cases h
          exact ⟨fs, p, q, h1, h2, h3, hp, rfl⟩
      · rw [hr, hv] at h4; cases h4
      · rw [hr] at h4; cases h4
    | _ => rw [hr] at h; cases h

end

/-- C99: a member function of the class `b` is called, for a variant that holds an object of another class or a pointer to one, only on
    what is at the address along `_base` declarations, from the class the object says it is of to `b`. -/
theorem C99_member (U : Outside) (cs : List Call) (N : Nest) (f : Fn) (b : Base) (isConst : Bool) (v : Vnt) (args : List Arg)
    (h : ∀ a ∈ args, ∀ p ∈ f.params, ArgFits nm U cs N a p) (ho : ObjFits nm U cs v b) (hz : v.self ≠ 0) (hk : b.kind = .cls)
    {g : Val.Held} {d : Base} {D : RType} {x y : Addr} (hg : v.held = some g) (hd : HoldsObject U v g d x) (hne : d ≠ b)
    (hs : SaysItIs nm U (init.run nm cs) d x D y) (hD : .idOf D ∈ cs) (vD : Reg.isVoid D = false) (hn : NoConverter nm U cs g b)
    {did : Val.Did} (hr : (init.run nm cs).memberInvoke nm U N f b isConst v args = .ok did) :
    ∃ fs p q bs, Defines nm cs D p ∧ Defines nm cs (clsType b) q ∧ Via nm cs D (clsType b) fs ∧ applyCasts fs y ≠ 0 ∧
      did = .called (some (.at (applyCasts fs y))) bs := by
  have e := C95_member U cs N f b isConst v args h ho
  dsimp only at e
  rw [e] at hr
  unfold Val.memberInvoke at hr
  generalize Val.pack f.params.length args = as at hr
  cases as with
  | ok as =>
    simp only [Ret.bind] at hr
    cases hob : Val.object ((init.run nm cs).env nm U) b f.const isConst v with
    | ok o =>
      obtain ⟨fs, p, q, h1, h2, h3, h4, rfl⟩ := object_at ho hz hk hg hd hne hs hD vD hn hob
      rw [hob] at hr
      simp only at hr
      generalize Val.getAll ((init.run nm cs).env nm U) N f.params as = bs at hr
      cases bs with
      | ok bs => cases hr; exact ⟨fs, p, q, bs, h1, h2, h3, h4, rfl⟩
      | _ => cases hr
    | _ => rw [hob] at hr; cases hr
  | _ => cases hr

/-- C99: a field of the class `b` that is read is the one in what is at such an address. -/
theorem C99_get (U : Outside) (cs : List Call) (N : Nest) (b : Base) (t : CType) (off : Nat) (v : Vnt) (ho : ObjFits nm U cs v b) (hz : v.self ≠ 0)
    (hk : b.kind = .cls) {g : Val.Held} {d : Base} {D : RType} {x y : Addr} (hg : v.held = some g) (hd : HoldsObject U v g d x) (hne : d ≠ b)
    (hs : SaysItIs nm U (init.run nm cs) d x D y) (hD : .idOf D ∈ cs) (vD : Reg.isVoid D = false) (hn : NoConverter nm U cs g b)
    {r : Val.Got} (hr : (init.run nm cs).getProperty nm U N (.field b t off) (some v) = .ok r) :
    ∃ fs p q, Defines nm cs D p ∧ Defines nm cs (clsType b) q ∧ Via nm cs D (clsType b) fs ∧ applyCasts fs y ≠ 0 ∧
      r = .ref (Val.addConst t) ⟨.at (applyCasts fs y), off⟩ := by
  have e := C95_get U cs N (.field b t off) (some v) (by
    intro w hw c hc
    cases hw
    cases List.mem_singleton.1 hc
    exact ho)
  dsimp only at e
  rw [e] at hr
  simp only [Val.Property.get] at hr
  cases hob : Val.object ((init.run nm cs).env nm U) b true true v with
  | ok o =>
    obtain ⟨fs, p, q, h1, h2, h3, h4, rfl⟩ := object_at ho hz hk hg hd hne hs hD vD hn hob
    rw [hob] at hr
    cases hr
    exact ⟨fs, p, q, h1, h2, h3, h4, rfl⟩
  | _ => rw [hob] at hr; cases hr

/-- C99: a field of the class `b` that is written is the one in what is at such an address; it gets the value of the argument. -/
theorem C99_set (U : Outside) (cs : List Call) (N : Nest) (b : Base) (t : CType) (off : Nat) (isConst : Bool) (v : Vnt) (a : Arg)
    (ho : ObjFits nm U cs v b) (hf : ArgFits nm U cs N a ⟨.none, t⟩) (hz : v.self ≠ 0)
    (hk : b.kind = .cls) {g : Val.Held} {d : Base} {D : RType} {x y : Addr} (hg : v.held = some g) (hd : HoldsObject U v g d x) (hne : d ≠ b)
    (hs : SaysItIs nm U (init.run nm cs) d x D y) (hD : .idOf D ∈ cs) (vD : Reg.isVoid D = false) (hn : NoConverter nm U cs g b)
    {r : Val.Wrote} (hr : (init.run nm cs).setProperty nm U N (.field b t off) (some (isConst, v)) a = .ok r) :
    ∃ fs p q m, Defines nm cs D p ∧ Defines nm cs (clsType b) q ∧ Via nm cs D (clsType b) fs ∧ applyCasts fs y ≠ 0 ∧
      (init.run nm cs).newValue nm U N t a = .ok m ∧ r = .assigned ⟨.at (applyCasts fs y), off⟩ m := by
  have nv : (init.run nm cs).newValue nm U N t a = Val.newValue ((init.run nm cs).env nm U) N t a := by
    unfold Prog.newValue Val.newValue
    rw [show (init.run nm cs).argGet nm U N a ⟨.none, t⟩ = _ from C95_argument U cs N a ⟨.none, t⟩ fun _ => hf]
    rfl
  rw [nv]
  have e := C95_set U cs N (.field b t off) (some (isConst, v)) a
    (by
      intro w hw c hc
      cases hw
      cases List.mem_singleton.1 hc
      exact ho)
    (by
      intro q hq
      cases List.mem_singleton.1 hq
      exact hf)
  dsimp only at e
  rw [e] at hr
  have et : v.type .none = g.type .none := by unfold Vnt.type; rw [hg]
  have hcls : (describe (v.type .none)).isClass = true ∨ (describe (v.type .none)).isClassPtr = true := by
    rw [et]
    rcases hd with ⟨hd', -⟩ | ⟨hd', ha, -⟩
    · exact .inl (shown_class (a := .none) (T := clsType b) hd' (tag_base hk _) hne).2
    · exact .inr (shown_pointer (a := .none) (T := ⟨.none, .ptr ⟨false, false⟩ (.base b ⟨false, false⟩)⟩) hd' ha (tag_pointer hk _ _) hne).2
  have key : ∀ {r : Val.Wrote}, ((Val.newValue ((init.run nm cs).env nm U) N t a).bind fun m =>
      (Val.object ((init.run nm cs).env nm U) b false isConst v).bind fun o =>
        match o with
        | none => .ok .nothing
        | some o => .ok (.assigned ⟨o, off⟩ m)) = .ok r →
      ∃ fs p q m, Defines nm cs D p ∧ Defines nm cs (clsType b) q ∧ Via nm cs D (clsType b) fs ∧ applyCasts fs y ≠ 0 ∧
        Val.newValue ((init.run nm cs).env nm U) N t a = .ok m ∧ r = .assigned ⟨.at (applyCasts fs y), off⟩ m := by
    intro r hr
    cases hm : Val.newValue ((init.run nm cs).env nm U) N t a with
    | ok m =>
      rw [hm] at hr
      cases hob : Val.object ((init.run nm cs).env nm U) b false isConst v with
      | ok o =>
        obtain ⟨fs, p, q, h1, h2, h3, h4, rfl⟩ := object_at ho hz hk hg hd hne hs hD vD hn hob
        rw [hob] at hr
        cases hr
        exact ⟨fs, p, q, m, h1, h2, h3, h4, rfl, rfl⟩
      | _ => rw [hob] at hr; cases hr
    | _ => rw [hm] at hr; cases hr
  simp only [Val.Property.set] at hr
  split at hr
  · cases hr
  · rw [if_neg (by rw [hg]; nofun)] at hr
    split at hr
    · split at hr
      · cases hr
      · exact key hr
    · next hc =>
      rw [if_pos (hcls.resolve_left hc)] at hr
      exact key hr

/-- C99: constness allows the call: a const instance, or a const object, or a pointer to one, only for const functions -/
def Allowed (g : Val.Held) (b : Base) (method isConst : Bool) : Prop :=
  if g.t.isPointer then Val.compat (g.type (if isConst then .lrefConst else .lref)) ⟨.none, .ptr ⟨false, false⟩ (.base b ⟨method, false⟩)⟩ = .ok true
  else (isConst = true → method = true) ∧
    Val.compat (g.type (if isConst then .lrefConst else .lref)) ⟨.lref, .base b ⟨method, false⟩⟩ = .ok true

/-- C99: and it is called if there are such declarations, none of them in a circle, constness allows it, and the arguments fit. -/
theorem C99_runs (U : Outside) (cs : List Call) (N : Nest) (f : Fn) (b : Base) (isConst : Bool) (v : Vnt) (args : List Arg)
    (h : ∀ a ∈ args, ∀ p ∈ f.params, ArgFits nm U cs N a p) (ho : ObjFits nm U cs v b) (hz : v.self ≠ 0) (hk : b.kind = .cls)
    {g : Val.Held} {d : Base} {D : RType} {x y : Addr} (hg : v.held = some g) (hd : HoldsObject U v g d x) (hne : d ≠ b)
    (hs : SaysItIs nm U (init.run nm cs) d x D y) (hD : .idOf D ∈ cs) (vD : Reg.isVoid D = false)
    {as : List Arg} {bs : List Val.Bound} (ha : Val.pack f.params.length args = .ok as) (hb : (init.run nm cs).getAll nm U N f.params as = .ok bs)
    (hc : Allowed g b f.const isConst) {p q : Ptr} (dD : Defines nm cs D p) (dB : Defines nm cs (clsType b) q) (hv : ∃ fs, Via nm cs D (clsType b) fs)
    (hy : ∀ fs, Via nm cs D (clsType b) fs → applyCasts fs y ≠ 0) (hl : ¬CircleFrom nm cs D) :
    ∃ fs, Via nm cs D (clsType b) fs ∧
      (init.run nm cs).memberInvoke nm U N f b isConst v args = .ok (.called (some (.at (applyCasts fs y))) bs) := by
  obtain ⟨fs, hf⟩ := hv
  have e := C95_member U cs N f b isConst v args h ho
  dsimp only at e
  have key : ∃ fs, Via nm cs D (clsType b) fs ∧
      Val.object ((init.run nm cs).env nm U) b f.const isConst v = .ok (some (.at (applyCasts fs y))) := by
    unfold Val.object Allowed at *
    rw [hg, if_neg (by nofun)]
    have et : v.type .none = g.type .none := by unfold Vnt.type; rw [hg]
    rcases id hd with ⟨hd', -⟩ | ⟨hd', ga, -⟩
    · have n2 := (shown_class (a := .none) (T := clsType b) hd' (tag_base hk _) hne).2
      obtain ⟨-, cv, eg⟩ := tag_cls hd'
      rw [if_neg (by rw [eg]; simp [CType.isPointer])] at hc
      obtain ⟨hm, hc⟩ := hc
      rw [et, if_pos n2, if_neg (by cases isConst <;> simp_all)]
      have hA : AsTypes nm U cs v (if isConst then Access.refConst else .ref).attr
          ((if isConst then Access.refConst else .ref).target (.base b ⟨f.const, false⟩)) := by
        cases isConst
        · exact ho.ref f.const _
        · exact ho.ref true _
      have hc' : Val.compat (g.type (if isConst then Access.refConst else .ref).attr)
          ((if isConst then Access.refConst else .ref).target (.base b ⟨f.const, false⟩)) = .ok true := by
        cases isConst
        · exact hc
        · rw [hm rfl] at hc ⊢; exact hc
      have e := C94_reference U cs v (if isConst then .refConst else .ref) _ hA
      dsimp only at e
      rcases C98_reference U cs v _ _ hA hz hg hd rfl ⟨hne, .inl ⟨hd', tag_base hk _⟩⟩ hc' hs hD vD with ⟨fs, p, q, h1, h2, h3, h4⟩ | ⟨h4, -⟩ | ⟨h4, -⟩
      · refine ⟨fs, h3, ?_⟩
        rw [← e, h4]
        simp [Given, hy fs h3, CType.isPointer, Ret.bind]
      · exact absurd hf (h4 fs p q dD dB)
      · exact absurd h4 hl
    · have n2 := (shown_pointer (a := .none) (T := ⟨.none, .ptr ⟨false, false⟩ (.base b ⟨f.const, false⟩)⟩) hd' ga (tag_pointer hk _ _) hne).2
      obtain ⟨-, cv, cv', eg⟩ := tag_clsPtr hd' ga
      rw [if_pos (by rw [eg]; rfl)] at hc
      have n1 : (describe (g.type .none)).isClass = false := by
        rw [Val.describe_isClassPtr] at n2
        rw [describe_isClass]
        simp only [Bool.and_eq_true] at n2
        rw [n2.2]; simp
      rw [et, n1, n2]
      simp only [Bool.false_eq_true, if_false, if_true]
      have hA := ho.ptr f.const (if isConst then .lrefConst else .lref)
      have e := C94_to U cs v isConst _ hA
      dsimp only at e
      rcases C98_to U cs v isConst _ hA hg hd rfl ⟨hne, .inr ⟨hd', tag_pointer hk _ _⟩⟩ hc hs hD vD with ⟨fs, p, q, h1, h2, h3, h4⟩ | ⟨h4, -⟩ | ⟨h4, -⟩
      · refine ⟨fs, h3, ?_⟩
        rw [← e, h4]
        simp [Copied, hy fs h3, CType.isPointer, Ret.bind, Val.pointee]
      · exact absurd hf (h4 fs p q dD dB)
      · exact absurd h4 hl
  obtain ⟨fs, h3, hob⟩ := key
  refine ⟨fs, h3, ?_⟩
  unfold Val.memberInvoke at e
  rw [ha, hob] at e
  rw [e]
  have eb := C95_static U cs N f args h
  dsimp only at eb
  unfold Prog.staticInvoke Val.staticInvoke at eb
  rw [ha] at eb
  simp only [Ret.bind, hb] at eb ⊢
  generalize Val.getAll ((init.run nm cs).env nm U) N f.params as = r at eb
  cases r with
  | ok bs' => cases eb; rfl
  | _ => cases eb

/-- C99: members are looked for by name in the class that was defined for the type the object says it is of, and nowhere else. -/
theorem C99_searched (U : Outside) (cs : List Call) (v : Vnt) {T : RType} (h : Fits nm U cs v T) {g : Val.Held} {d : Base} {D : RType} {x y : Addr}
    (hg : v.held = some g) (hd : HoldsObject U v g d x) (hs : SaysItIs nm U (init.run nm cs) d x D y) (hD : .idOf D ∈ cs) (vD : Reg.isVoid D = false) :
    (∀ c, (init.run nm cs).memberClass nm U v = .ok c ↔ Defines nm cs D c) ∧
    ((∀ c, ¬Defines nm cs D c) → (init.run nm cs).memberClass nm U v = .throw .runtimeError) := by
  have h' := h .none
  have hc : (describe (g.type .none)).isClass = true ∨ (describe (g.type .none)).isClassPtr = true := by
    have ed : tag (g.type .none).t = tag g.t := Val.tag_congr (by rw [Val.type_fullDecay, Val.u_fullDecay])
    rcases hd with ⟨hd', -⟩ | ⟨hd', ha, -⟩
    · obtain ⟨hk, q, e⟩ := tag_cls (ed.trans hd')
      left
      rw [describe_isClass, e]
      simp [CType.isPointer, CType.baseType, hk]
    · obtain ⟨hk, q, q', e⟩ := tag_clsPtr (ed.trans hd') (by rw [Val.type_isArray, Val.u_isArray, ha])
      right
      rw [Val.describe_isClassPtr, e]
      simp [CType.isPointer, CType.pointerArity, CType.baseType, hk]
  obtain ⟨w, hw⟩ := h'.source hg
  obtain ⟨k, hk⟩ := asked_held h'.texts hD vD
  obtain ⟨z, hz, -⟩ := h'.inv.ok.names _ _ (h'.inv.texts.held _ _ hk)
  have el : (init.run nm cs).lookup ((init.run nm cs).idNow nm D) = .val ((init.run nm cs).world.find ((init.run nm cs).idNow nm D)) := by
    rw [idNow_held vD hk]; exact h'.inv.lookup k (.inr ⟨z, hz⟩)
  have fD := fun c => find_defines h'.texts h'.told (c := c) hD vD
  have es := hw.seen h'.inv
  have e : (init.run nm cs).memberClass nm U v = match (init.run nm cs).world.find ((init.run nm cs).idNow nm D) with
      | some c => .ok c
      | none => .throw .runtimeError := by
    unfold Prog.memberClass Prog.heldId
    rw [hg]
    dsimp only
    rw [es]
    simp only [Ret.bind]
    rw [if_pos (by simpa using hc), hs.info hg hd]
    simp only [el, Ret.lift]
    cases (init.run nm cs).world.find ((init.run nm cs).idNow nm D) <;> rfl
  rw [e]
  cases ef : (init.run nm cs).world.find ((init.run nm cs).idNow nm D) with
  | some c =>
    refine ⟨fun c' => ⟨fun h => ?_, fun h => ?_⟩, fun h => absurd ((fD c).1 ef) (h c)⟩
    · cases h; exact (fD c).1 ef
    · rw [← fD, ef] at h; cases h; rfl
  | none =>
    refine ⟨fun c' => ⟨fun h => (by cases h), fun h => ?_⟩, fun _ => rfl⟩
    rw [← fD, ef] at h; cases h

/-! two classes, the second derived from the first at offset 16, and a `D` held -/

private def plain : Traits := ⟨true, true, false, false, true, true, true, true, true, true, true⟩
private def cB : Base := ⟨1, .cls, 4, plain⟩
private def cD : Base := ⟨2, .cls, 8, plain⟩
private def cV : Base := ⟨4, .cls, 24, plain⟩
private def tB : CType := .base cB ⟨false, false⟩
private def tD : CType := .base cD ⟨false, false⟩
private def tI : CType := .base ⟨3, .integral, 4, plain⟩ ⟨false, false⟩
private def outside : Outside :=
  ⟨fun _ => false, fun _ a => (0, a), fun a => a + 100, fun _ _ => false, fun n => ⟨n, .functor, fun _ => .returns false false⟩⟩
private def nest : Nest := ⟨cV, fun a => ⟨some ⟨false, tD⟩, a, 0⟩⟩
private def f : Fn := ⟨some cB, false, [], none⟩
/-- a `D` at 500; a `D*` at 500 that points to 600 -/
private def vD : Vnt := ⟨some ⟨false, tD⟩, 500, 0⟩
private def vP : Vnt := ⟨some ⟨false, .ptr ⟨false, false⟩ tD⟩, 500, 600⟩
/-- an `int` as an argument -/
private def argI : Arg := ⟨false, ⟨some ⟨true, tI⟩, 700, 800⟩⟩
private def targets : List RType :=
  [clsType cV, ⟨.lref, .base cV ⟨false, false⟩⟩, ⟨.lref, .base cV ⟨true, false⟩⟩, ⟨.none, tI⟩, ⟨.lref, tI⟩, ⟨.lref, Val.addConst tI⟩, ⟨.lref, tB⟩, ⟨.lref, Val.addConst tB⟩, ⟨.none, .ptr ⟨false, false⟩ tB⟩, ⟨.none, .ptr ⟨false, false⟩ (Val.addConst tB)⟩]
private def decls : List Call :=
  [.cls World.globalNs ['B'] (clsType cB), .cls World.globalNs ['D'] (clsType cD), .base 3 (clsType cB) (· + 16)]
private def asks : List RType :=
  [vD, vP, argI.value].flatMap fun v => targets.flatMap fun T => [Attr.none, .lref, .rref, .lrefConst].flatMap fun a => asked v a T
private def cs : List Call := decls ++ asks.map .idOf

private theorem fits {v w : Vnt} {T : RType} (hv : w ∈ [vD, vP, argI.value]) (hw : v.held = w.held) (hT : T ∈ targets) : Fits Ex.rname outside cs v T := by
  intro a
  have hl : a ∈ [Attr.none, .lref, .rref, .lrefConst] := by cases a <;> decide
  refine ⟨Ex.rname_ne, fun _ _ _ _ e => Ex.rname_injective e, ?_, ?_, ?_, fun _ _ => ⟨_, rfl⟩⟩
  · intro S hS
    refine List.mem_append_right _ (List.mem_map_of_mem (List.mem_flatMap.2 ⟨w, hv, List.mem_flatMap.2 ⟨T, hT, List.mem_flatMap.2 ⟨a, hl, ?_⟩⟩⟩))
    unfold asked at hS ⊢
    rw [← hw]
    exact hS
  · intro h e
    rw [hw] at e
    simp only [List.mem_cons, List.not_mem_nil, or_false] at hv
    rcases hv with rfl | rfl | rfl <;> cases e <;> cases a <;> decide
  · revert T; decide

private theorem argFits : ArgFits Ex.rname outside cs nest argI ⟨.none, tI⟩ := by
  have hw : ∀ w, (w = argI.value ∨ ∃ x, w = nest.inner x) → ∃ w' ∈ [vD, vP, argI.value], w.held = w'.held := by
    rintro w (rfl | ⟨x, rfl⟩)
    · exact ⟨argI.value, by simp, rfl⟩
    · exact ⟨vD, by simp, rfl⟩
  have hi : argI.value ∈ [vD, vP, argI.value] := by simp
  exact ⟨rfl, fits hi rfl (by decide), fits hi rfl (by decide), fits hi rfl (by decide),
    fun w h => let ⟨_, h1, h2⟩ := hw w h; fits h1 h2 (by decide), fun w h => let ⟨_, h1, h2⟩ := hw w h; fits h1 h2 (by decide),
    fun w h => let ⟨_, h1, h2⟩ := hw w h; fits h1 h2 (by decide)⟩

private theorem objFits {v : Vnt} (hv : v ∈ [vD, vP, argI.value]) : ObjFits Ex.rname outside cs v cB :=
  ⟨fun c => fits hv rfl (by cases c <;> decide), fun c => fits hv rfl (by cases c <;> decide)⟩

private theorem defines {cs : List Call} (T : RType) (c : Ptr) (hT : .idOf T ∈ cs) (hv : Reg.isVoid T = false)
    (hf : (init.run Ex.rname cs).lookup ((init.run Ex.rname cs).idNow Ex.rname T) = .val (some c)) : Defines Ex.rname cs T c :=
  (C97_class Ex.rname_ne cs T c hT hv fun _ _ _ _ e => Ex.rname_injective e).1 hf

private theorem asks_mem {T : RType} (h : T ∈ asks) : .idOf T ∈ cs := List.mem_append_right _ (List.mem_map_of_mem h)

private theorem none_of {A : Type} {o : Option A} (h : o.isNone = true) : o = none := Option.isNone_iff_eq_none.1 h

private theorem noConverter (c : Bool) : (((init.run Ex.rname cs).env Ex.rname outside).conv (⟨false, .ptr ⟨false, false⟩ tD⟩ : Val.Held).t.fullDecay
    (CType.ptr ⟨false, false⟩ (.base cB ⟨c, false⟩)).fullDecay).isNone = true := by cases c <;> decide +kernel

-- what all assume, for the object and for the pointer
example : ArgFits Ex.rname outside cs nest argI ⟨.none, tI⟩ ∧ ObjFits Ex.rname outside cs vD cB ∧ HoldsObject outside vD ⟨false, tD⟩ cD 500 ∧ SaysItIs Ex.rname outside (init.run Ex.rname cs) cD 500 (clsType cD) 500 ∧
    ObjFits Ex.rname outside cs vP cB ∧ HoldsObject outside vP ⟨false, .ptr ⟨false, false⟩ tD⟩ cD 600 ∧
    SaysItIs Ex.rname outside (init.run Ex.rname cs) cD 600 (clsType cD) 600 ∧ cD ≠ cB ∧
    NoConverter Ex.rname outside cs ⟨false, tD⟩ cB ∧ NoConverter Ex.rname outside cs ⟨false, .ptr ⟨false, false⟩ tD⟩ cB ∧
    Allowed ⟨false, tD⟩ cB false false ∧ Allowed ⟨false, .ptr ⟨false, false⟩ tD⟩ cB false false :=
  ⟨argFits, objFits (by simp), .inl ⟨by decide, rfl⟩, ⟨rfl, rfl⟩, objFits (by simp), .inr ⟨by decide, rfl, rfl⟩, ⟨rfl, rfl⟩, by decide, (by nofun),
    fun _ c => none_of (noConverter c), ⟨by nofun, by decide⟩, (by decide : Val.compat _ _ = _)⟩
-- the function is called on the `B` in the `D`; a function of `D` is not called on a `B`
example :
    (init.run Ex.rname cs).memberInvoke Ex.rname outside nest f cB false vD [] = .ok (.called (some (.at 516)) []) ∧
    (init.run Ex.rname cs).memberInvoke Ex.rname outside nest f cB false vP [] = .ok (.called (some (.at 616)) []) ∧
    (init.run Ex.rname cs).memberInvoke Ex.rname outside nest f cB true vD [] = .throw .badVariantCast ∧
    (let v : Vnt := ⟨some ⟨false, tB⟩, 500, 0⟩
     let cs := cs ++ ((asked v .lref ⟨.lref, tD⟩) ++ (asked v .none ⟨.lref, tD⟩)).map .idOf
     (init.run Ex.rname cs).memberInvoke Ex.rname outside nest ⟨some cD, false, [], none⟩ cD false v [] = .throw .badVariantCast) := by decide +kernel
-- members of a `D` are looked for in the class `D`
example : (init.run Ex.rname cs).memberClass Ex.rname outside vD = .ok 3 ∧ (init.run Ex.rname cs).memberClass Ex.rname outside vP = .ok 3 ∧
    (init.run Ex.rname cs).memberClass Ex.rname outside argI.value = .throw .runtimeError := by decide +kernel
-- the field at 4 in `B`, read and written
example :
    (init.run Ex.rname cs).getProperty Ex.rname outside nest (.field cB tI 4) (some vD) = .ok (.ref (Val.addConst tI) ⟨.at 516, 4⟩) ∧
    (init.run Ex.rname cs).getProperty Ex.rname outside nest (.field cB tI 4) (some vP) = .ok (.ref (Val.addConst tI) ⟨.at 616, 4⟩) ∧
    (init.run Ex.rname cs).setProperty Ex.rname outside nest (.field cB tI 4) (some (false, vD)) argI = .ok (.assigned ⟨.at 516, 4⟩ (.copyOf 800)) ∧
    (init.run Ex.rname cs).setProperty Ex.rname outside nest (.field cB tI 4) (some (true, vP)) argI = .ok (.assigned ⟨.at 616, 4⟩ (.copyOf 800)) := by decide +kernel

private theorem noBase {S T : RType} {i j : Nat} (c : Ptr) (B : RType) (k : Caster) : Call.base c B k ∉ Call.conv S T i j :: asks.map .idOf := by
  intro h
  rcases List.mem_cons.1 h with h | h
  · cases h
  · obtain ⟨_, -, h⟩ := List.mem_map.1 h
    cases h

/-- C99, what it needs: with a converter to pointers to the class a member function runs on what the converter makes, though nothing was
    declared to be a base of anything. -/
theorem C99_converter_false : ∃ (nm : RType → Str) (U : Outside) (cs : List Call) (N : Nest) (f : Fn) (b : Base) (v : Vnt) (g : Val.Held),
    Function.Injective nm ∧ v.held = some g ∧ tag g.t = .clsPtr cD ∧ b ≠ cD ∧ (∀ c B k, .base c B k ∉ cs) ∧
    (init.run nm cs).memberInvoke nm U N f b false v [] = .ok (.called (some (.made 7 500)) []) :=
  ⟨Ex.rname, outside, .conv ⟨.none, .ptr ⟨false, false⟩ tD⟩ ⟨.none, .ptr ⟨false, false⟩ tB⟩ 0 7 :: asks.map .idOf, nest, f, cB, vP, _, Ex.rname_injective, rfl,
    by decide, by decide, noBase, by decide +kernel⟩

/-! all that `C99_runs` assumes -/

private theorem definesD : Defines Ex.rname cs (clsType cD) 3 := defines _ _ (asks_mem (by decide +kernel)) rfl (by decide +kernel)
private theorem definesB : Defines Ex.rname cs (clsType cB) 2 := defines _ _ (asks_mem (by decide +kernel)) rfl (by decide +kernel)

private theorem only {c : Ptr} {B : RType} {k : Caster} (h : Declares Ex.rname cs c B k) : c = 3 ∧ B = clsType cB ∧ k = (· + 16) := by
  obtain ⟨l, l', e, -⟩ := h
  have hm : Call.base c B k ∈ decls ++ asks.map .idOf := by
    rw [show decls ++ asks.map .idOf = l ++ .base c B k :: l' from e]
    exact List.mem_append_right _ List.mem_cons_self
  rcases List.mem_append.1 hm with h | h
  · simp only [decls, List.mem_cons, reduceCtorEq, List.not_mem_nil, or_false, false_or] at h
    injection h with h1 h2 h3
    exact ⟨h1, h2, h3⟩
  · obtain ⟨S, -, h⟩ := List.mem_map.1 h
    cases h

private theorem notB {X : RType} (h : Defines Ex.rname cs X 3) : X ≠ clsType cB := by
  rintro rfl
  exact absurd ((C97_unique Ex.rname_ne cs (fun _ _ _ _ e => Ex.rname_injective e) h definesB).1 rfl) (by decide)

private theorem fromB {X T : RType} {fs : List Caster} (h : Via Ex.rname cs X T fs) (hX : X = clsType cB) : T = clsType cB ∧ fs = [] := by
  cases h with
  | refl => exact ⟨hX, rfl⟩
  | step h1 h2 _ =>
    obtain ⟨rfl, -, -⟩ := only h2
    exact absurd hX (notB h1)

private theorem noCircle (X : RType) : ¬CircleFrom Ex.rname cs X := by
  rintro ⟨B, fs, k, gs, -, h⟩
  cases h with
  | step h1 h2 h3 =>
    obtain ⟨rfl, hB, -⟩ := only h2
    exact notB h1 (fromB h3 hB).1

private theorem away {fs : List Caster} (h : Via Ex.rname cs (clsType cD) (clsType cB) fs) : fs = [(· + 16)] := by
  generalize e : clsType cB = T at h
  cases h with
  | refl => exact absurd e (by decide)
  | step h1 h2 h3 =>
    obtain ⟨-, hB, rfl⟩ := only h2
    rw [(fromB h3 hB).2]

private theorem declared : ∃ fs, Via Ex.rname cs (clsType cD) (clsType cB) fs := by
  obtain ⟨k, hk⟩ := C97_declared (nm := Ex.rname) (cs := cs) (c := 3) (B := clsType cB) (f := (· + 16))
    (l := [.cls World.globalNs ['B'] (clsType cB), .cls World.globalNs ['D'] (clsType cD)]) (l' := asks.map .idOf) rfl (by decide +kernel)
  exact ⟨_, .step definesD hk (.refl _)⟩

example : ∃ fs, Via Ex.rname cs (clsType cD) (clsType cB) fs ∧
    (init.run Ex.rname cs).memberInvoke Ex.rname outside nest f cB false vD [] = .ok (.called (some (.at (applyCasts fs 500))) []) :=
  C99_runs (x := 500) outside cs nest f cB false vD [] (by nofun) (objFits (by simp)) (by decide) rfl rfl (.inl ⟨by decide, rfl⟩) (by decide) ⟨rfl, rfl⟩
    (asks_mem (by decide +kernel)) rfl rfl rfl ⟨by nofun, by decide⟩ definesD definesB declared
    (fun _ h => by rw [away h]; decide) (noCircle _)

end Rtti.Props
