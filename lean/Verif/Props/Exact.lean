import Verif.Props.Registry
import Verif.Props.Signature
/-
C12, C13, C20, C24: exactly when each of them holds.
-/
set_option autoImplicit false
namespace Rtti.Props
open Spec Reg World

/-! ### C12 -/

/-- `fn` is the function the first call for this pair with functor type `f` supplied -/
def FirstFunction (ops : List RegOp) (S T : RType) (f fn : Nat) : Prop :=
  ∃ pre S' T' post, ops = pre ++ .regT S' T' f fn :: post ∧ SamePair S T S' T' ∧
    ∀ S'' T'' fn', .regT S'' T'' f fn' ∈ pre → ¬ SamePair S T S'' T''

theorem firstFn_iff (ops : List RegOp) (S T : RType) (f fn : Nat) : firstFn ops S T f = some fn ↔ FirstFunction ops S T f fn := by
  unfold firstFn
  rw [List.findSome?_eq_some_iff]
  constructor
  · rintro ⟨pre, x, post, rfl, hx, hp⟩
    cases x <;> simp only [reduceCtorEq] at hx
    rename_i S' T' f' fn'
    split at hx
    · rename_i h
      cases hx
      obtain ⟨h1, rfl⟩ := h
      refine ⟨pre, S', T', post, rfl, h1, fun S'' T'' fn' hm h2 => ?_⟩
      have := hp _ hm
      simp [h2] at this
    · cases hx
  · rintro ⟨pre, S', T', post, rfl, h1, h2⟩
    refine ⟨pre, _, post, rfl, by simp [h1], fun x hx => ?_⟩
    cases x <;> try rfl
    rename_i S'' T'' f'' fn''
    simp only [ite_eq_right_iff, reduceCtorEq, imp_false, not_and]
    rintro hp rfl
    exact h2 _ _ _ hx hp

theorem firstFn_none (ops : List RegOp) (S T : RType) (f : Nat) :
    firstFn ops S T f = none ↔ ∀ S' T' fn, .regT S' T' f fn ∈ ops → ¬ SamePair S T S' T' := by
  unfold firstFn
  rw [List.findSome?_eq_none_iff]
  constructor
  · intro h S' T' fn hm hp
    have := h _ hm
    simp [hp] at this
  · intro h x hx
    cases x <;> try rfl
    rename_i S'' T'' f'' fn''
    simp only [ite_eq_right_iff, reduceCtorEq, imp_false, not_and]
    rintro hp rfl
    exact h _ _ _ hx hp

/-- C12, exactly: after any calls, removing the converter and registering `g` succeeds, and from then on conversions run `g` if and
    only if `g` is the function of the first call there ever was for this pair with this type of functor. -/
theorem C12_exact (nm : RType → Str) (hn : Function.Injective nm) (h0 : ∀ T, nm T ≠ []) (ops : List RegOp)
    (hc : ∀ op ∈ ops, TypedCall op) (S T : RType) (f g : Nat) (hS : ¬ IsVoid S.t) (hT : ¬ IsVoid T.t) :
    ∃ r outs fn, Reg.init.run nm (ops ++ [.unregT S T, .regT S T f g, .convertT S T]) = .val (r, outs ++ [.bool true, .ran (some fn)]) ∧
      FirstFunction (ops ++ [.regT S T f g]) S T f fn ∧
      (fn = g ↔ ∀ fn', FirstFunction ops S T f fn' → fn' = g) := by
  have hall : ∀ op ∈ ops ++ [.unregT S T, .regT S T f g, .convertT S T], TypedCall op := by
    intro op hop
    simp only [List.mem_append, List.mem_cons, List.not_mem_nil, or_false] at hop
    rcases hop with hop | rfl | rfl | rfl
    · exact hc op hop
    all_goals trivial
  obtain ⟨r2, outs', e⟩ := C11_total nm _ hall
  rw [show ops ++ [.unregT S T, .regT S T f g, .convertT S T] =
    ((ops ++ [.unregT S T]) ++ [.regT S T f g]) ++ [.convertT S T] by simp] at e hall ⊢
  obtain ⟨r1, outs1, o1, e1, e2, rfl⟩ := run_snoc_val e
  obtain ⟨r, outs, o, e3, e4, rfl⟩ := run_snoc_val e1
  obtain ⟨ok, t, c⟩ := typed_run hn h0 _ (fun op h => hall op (by
    rw [List.mem_append, List.mem_append]; exact .inl (.inl h))) e3
  obtain ⟨t1, c1, b, hb, hb'⟩ := typed_step hn h0 ok t c (by trivial) e4
  obtain ⟨ok1, _, _⟩ := typed_run hn h0 _ (fun op h => hall op (by rw [List.mem_append]; exact .inl h)) e1
  have hself : SamePair S T S T := samePair_iff.2 ⟨rfl, rfl⟩
  have pn : present (ops ++ [.unregT S T]) S T = none := by
    rw [present_snoc]; simp [hself]
  have a := (typed_step hn h0 ok1 t1 c1 (by trivial) e2).2.2
  have ps : present (ops ++ [.unregT S T] ++ [.regT S T f g]) S T = some (f, g) := by
    rw [present_snoc]; simp [hself, pn, hS, hT]
  have fs : firstFn (ops ++ [.unregT S T] ++ [.regT S T f g]) S T f = some ((firstFn ops S T f).getD g) := by
    simp only [firstFn, List.findSome?_append, List.findSome?_cons, List.findSome?_nil, hself, and_self, if_true]
    cases List.findSome? _ ops <;> simp
  refine ⟨r2, outs, (firstFn ops S T f).getD g, ?_, ?_, ?_⟩
  · rw [e, show o1 = _ from a, ps, hb, hb'.2 ⟨pn, hS, hT⟩]
    simp only [Option.bind_some]
    rw [fs]
    simp only [List.append_assoc, List.cons_append, List.nil_append]
  · rw [← firstFn_iff]
    simp only [firstFn, List.findSome?_append, List.findSome?_cons, hself, and_self, if_true]
    cases List.findSome? _ ops <;> simp
  · cases hf : firstFn ops S T f with
    | none =>
      simp only [Option.getD_none, true_iff]
      intro fn' h
      rw [← firstFn_iff, hf] at h
      cases h
    | some x =>
      simp only [Option.getD_some]
      have hx := (firstFn_iff ops S T f x).1 hf
      constructor
      · rintro rfl fn' h
        rw [← firstFn_iff, hf] at h
        cases h; rfl
      · intro h; exact h _ hx

/-- both cases happen: the old function, then (with another type of functor) the new one -/
example : FirstFunction [.regT Ex.vi Ex.vX 0 7, .unregT Ex.vi Ex.vX] Ex.vi Ex.vX 0 7 ∧
    ∀ fn, ¬ FirstFunction [.regT Ex.vi Ex.vX 0 7, .unregT Ex.vi Ex.vX] Ex.vi Ex.vX 1 fn := by
  refine ⟨⟨[], _, _, _, rfl, samePair_iff.2 ⟨rfl, rfl⟩, by simp⟩, ?_⟩
  rintro fn ⟨pre, S', T', post, e, _⟩
  have : RegOp.regT S' T' 1 fn ∈ [RegOp.regT Ex.vi Ex.vX 0 7, .unregT Ex.vi Ex.vX] := by rw [e]; simp
  simp at this

/-! ### C13 -/

/-- C13, exactly: the result is right (success with an object, or failure without one and without an exception) if and only if the
    converter has no flag parameter or its function succeeds. -/
theorem C13_exact (k : ConvKind) (u : UserCall) :
    ((¬ Fails k u ∧ runConverter k u = (.returned true, true)) ∨ (Fails k u ∧ runConverter k u = (.returned false, false))) ↔
      (k = .functor ∨ ¬ Fails k u) := by
  cases k <;> cases u with
  | throws => simp [Fails, runConverter]
  | returns f c => cases c <;> cases f <;> simp [Fails, runConverter]

/-- What a failing converter with the flag parameter does: an exception (of the function, or of the constructor of the result) comes
    out and there is no object, or failure is reported with an object left in the buffer. -/
theorem C13_flagged (u : UserCall) (h : Fails .functorOk u) :
    ((u = .throws ∨ ∃ f, u = .returns f true) ∧ runConverter .functorOk u = (.exception, false)) ∨
    (u = .returns false false ∧ runConverter .functorOk u = (.returned false, true)) := by
  cases u with
  | throws => simp [runConverter]
  | returns f c => cases c <;> cases f <;> simp_all [Fails, runConverter]

example : Fails .functorOk (.returns false false) ∧ Fails .functorOk (.returns true true) ∧ ¬ Fails .functorOk (.returns true false) := by
  simp [Fails]

/-! ### C20 -/

/-- C20, exactly: a call that succeeds returns the class of the type asked for if and only if the name was not in use, or in use for
    that type. -/
theorem C20_exact {rank} {w : World} (h : Reachable rank w) {o p : Ptr} {n : Str} {t : TypeId}
    (ho : w.isContainer o = true) (hn : n ≠ []) (hr : (w.createClass o n t).2 = .val (some p)) :
    ((w.createClass o n t).1.cls p).typeId = t ↔ ∀ x ∈ (w.cont o .cls).items, x.name = n → (w.cls x.ptr).typeId = t := by
  by_cases hx : ∃ x ∈ (w.cont o .cls).items, x.name = n
  · obtain ⟨x, hx, e⟩ := hx
    have hc := C20_taken_name h t hn hx e
    rw [hc] at hr ⊢
    cases hr
    constructor
    · intro ht y hy ey
      have i := Inv.reachable h
      have h1 := ((i.wf o .cls).get_iff n x).2 ⟨hn, hx, e⟩
      have h2 := ((i.wf o .cls).get_iff n y).2 ⟨hn, hy, ey⟩
      rw [h1] at h2
      cases h2; exact ht
    · intro ha; exact ha x hx e
  · have hnew : ∀ x ∈ (w.cont o .cls).items, x.name ≠ n := fun x hm e => hx ⟨x, hm, e⟩
    constructor
    · intro _ x hm e; exact absurd e (hnew x hm)
    · intro _; exact (C20_partial h ho hnew hr).2.1

/-- both cases: a name used for another type, and a new one -/
example : ((Ex.diamond.run [.registerType 5]).createClass 1 ['D'] 5).2 = .val (some 5) ∧
    ((Ex.diamond.run [.registerType 5]).cls 5).typeId ≠ 5 ∧
    (((Ex.diamond.run [.registerType 5]).createClass 1 ['E'] 5).1.cls 10).typeId = 5 := by decide

/-! ### C24 -/

/-- a method that is found is some container's own -/
theorem getMethod_own {rank} {w : World} (i : Inv rank w) {o m : Ptr} (ho : w.isContainer o = true) {n : Str} (hn : n ≠ [])
    (h : w.getMethod o n = .val (some m)) : ∃ c, OwnMethod w n c m := by
  unfold getMethod at h
  rw [if_neg hn] at h
  rw [isContainer_iff] at ho
  rcases ho with ho | ho
  · simp only [ho] at h
    obtain ⟨r, e, h1⟩ := ownMethod_spec w o n
    rw [e] at h; cases h
    exact ⟨o, (h1 m).1 rfl⟩
  · simp only [ho] at h
    obtain ⟨r, e, h1, _⟩ := i.classMethodF_spec n hn w.depth o ho (below_lt_depth _ _ _)
    rw [e] at h; cases h
    have := h1 m rfl
    clear h1 e ho
    rename_i h2
    clear h2
    induction this with
    | own h => exact ⟨_, h⟩
    | base _ _ _ _ _ ih => exact ih

/-- C24, exactly: a method defined under a name is the one found under that name if and only if there is no parenthesis in the name
    and no method of that name was there before. -/
theorem C24_exact {rank} {w : World} (h : Reachable rank w) {o : Ptr} (ho : w.isContainer o = true)
    {n : Str} {f : Func} (hn : n ≠ []) (hanc : w.getMethod o (funcSignature n f) = .val none) :
    ∃ m, (w.defineMethod o n f).2 = .val (some m) ∧ w.kind m = none ∧
      ((w.defineMethod o n f).1.getMethod o n = .val (some m) ↔
        '(' ∉ n ∧ ∀ x ∈ (w.cont o .method).items, ¬ Denotes n x.name) := by
  have hs : funcSignature n f ≠ [] := by
    obtain ⟨r, e⟩ := funcSignature_paren n f
    rw [e]; simp
  rcases C17_method h ho hs with ⟨p, h1, _⟩ | ⟨_, p, h1, h2, h3⟩
  · exact absurd (hanc.symm.trans h1) (by simp)
  · refine ⟨p, h1, h2.fresh, ?_⟩
    constructor
    · intro hg
      have hw : w.step (.createMethod o (funcSignature n f) true) = w.defineMethod o n f := if_pos ho
      have hreach : Reachable rank (w.defineMethod o n f).1 := by
        rw [← hw]
        have hv : (w.step (.createMethod o (funcSignature n f) true)).2 = .val (some p) := hw ▸ h1
        exact .step _ h trivial (by simp [hv]) (by simp [hv])
      have i' := Inv.reachable hreach
      have i := Inv.reachable h
      have hne : o ≠ p := by
        rintro rfl
        have := h2.fresh
        simp [isContainer, this] at ho
      have hoc : (w.defineMethod o n f).1.isContainer o = true := by
        have : (w.defineMethod o n f).1.kind o = w.kind o := (h2.otherObjects o hne).1
        simpa [isContainer, this] using ho
      obtain ⟨c, it, e, pre, post, hit, hd, hpre⟩ := getMethod_own i' hoc hn hg
      subst e
      obtain ⟨_, _, _, hc⟩ := i'.items c .method it (by rw [hit]; simp)
      have hco : c = o := by
        have := hc.symm.trans h2.owner
        simpa using this
      subst hco
      have hold : it ∉ (w.cont c .method).items := fun hm => by
        have := (i.items c .method it hm).2.1
        rw [h2.fresh] at this; cases this
      have hit' := h2.items.symm.trans hit
      obtain ⟨h4, h5⟩ : pre = (w.cont c .method).items ∧ it = ⟨it.ptr, funcSignature n f⟩ := by
        rcases List.append_eq_append_iff.1 hit' with ⟨as, ha, hb⟩ | ⟨bs, ha, hb⟩
        · cases as with
          | nil => simp at ha hb; exact ⟨ha, hb.1.symm⟩
          | cons a as => simp at hb
        · cases bs with
          | nil => simp at ha hb; exact ⟨ha.symm, hb.1⟩
          | cons b bs =>
            simp only [List.cons_append, List.cons.injEq] at hb
            exact absurd (by rw [ha, ← hb.1]; simp) hold
      rw [h5] at hd
      obtain ⟨r, er⟩ := funcSignature_paren n f
      refine ⟨?_, fun x hx => hpre x (h4 ▸ hx)⟩
      rcases hd with hd | ⟨_, _, hd⟩
      · simp [er] at hd
      · exact hd
    · rintro ⟨hp, hown⟩
      obtain ⟨m, e1, _, _, e2, _⟩ := C24_partial h ho hn hp hown hanc
      have : m = p := by
        have := e1.symm.trans h1
        simpa using this
      rw [← this]; exact e2

/-- `operator()` in a derived class: the method is there, and not found -/
example : Ex.diamond.getMethod 5 (funcSignature ['o', '(', ')'] (.member ['D'] false [])) = .val none ∧
    (Ex.diamond.defineMethod 5 ['o', '(', ')'] (.member ['D'] false [])).2 = .val (some 10) ∧
    (Ex.diamond.defineMethod 5 ['o', '(', ')'] (.member ['D'] false [])).1.getMethod 5 ['o', '(', ')'] = .val none := by decide

end Rtti.Props
