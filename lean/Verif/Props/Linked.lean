import Verif.Lemmas.Linked
import Verif.Props.Call
import Verif.Props.Signature
/-
C74.
-/
set_option autoImplicit false
namespace Rtti.Props
open Rtti Spec World Rtti.Val

variable {rank : TypeId → Nat} {S : RType → Str}

/-! ### the objects -/

/-- C74: every method of a container runs the function given to the call of `_method` that made it, for this container and
    with this signature. -/
theorem C74_method {h : List Def} {l : Linked} (a : Program rank S h l) {o : Ptr} {x : Item} (hx : x ∈ (l.w.cont o .method).items) :
    ∃ n f, DefinedMethod rank S h o n f ∧ x.name = f.signature S n ∧ l.fn x.ptr = some f := a.method hx

/-- C74: the same for properties. -/
theorem C74_property {h : List Def} {l : Linked} (a : Program rank S h l) {o : Ptr} {x : Item} (hx : x ∈ (l.w.cont o .property).items) :
    ∃ p, DefinedProperty rank S h o x.name p ∧ l.pr x.ptr = some p := a.property hx

private theorem signature_paren (n : Str) (f : Fn) : ∃ r, f.signature S n = n ++ '(' :: r := signatureText_paren _ _

private theorem signature_ne (n : Str) (f : Fn) : f.signature S n ≠ [] := by
  obtain ⟨r, e⟩ := signature_paren (S := S) n f
  rw [e]; simp

private theorem container_of_getMethod {w : World} {o : Ptr} {q : Str} (hq : q ≠ []) {r : Option Ptr} (h : w.getMethod o q = .val r) :
    w.isContainer o = true := by
  unfold getMethod at h
  rw [if_neg hq] at h
  rw [isContainer_iff]
  split at h
  · exact .inr (by assumption)
  · exact .inl (by assumption)
  · cases h

/-- a definition that is not dropped: the new object, for every query that it answers -/
private theorem defined_own {h : List Def} {l : Linked} (a : Program rank S h l) {pre post : List Def} {o : Ptr} {n : Str} {f : Fn} {l0 : Linked}
    (e : h = pre ++ .method o n f :: post) (a0 : Program rank S pre l0) (hnone : l0.w.getMethod o (f.signature S n) = .val none) :
    ∃ x ∈ (l.w.cont o .method).items, x.name = f.signature S n ∧ l.fn x.ptr = some f ∧ l.w.isContainer o = true ∧
      ∀ q, q ≠ [] → Denotes q (f.signature S n) → (∀ y ∈ (l0.w.cont o .method).items, ¬Denotes q y.name) → l.w.getMethod o q = .val (some x.ptr) ∧
        OwnMethod l.w q o x.ptr := by
  have e' : h = (pre ++ [.method o n f]) ++ post := by rw [e]; simp
  obtain ⟨l1, a1, lt, keep⟩ := a.split e'
  obtain ⟨l0', a0', rfl, hl, hu, hd⟩ := a1.last
  have := a0'.unique a0
  subst this
  have i := World.Inv.reachable a0.reachable
  have ho := container_of_getMethod (signature_ne n f) hnone
  have estep : l0'.w.step (Def.op S (.method o n f)) = l0'.w.createMethod o (f.signature S n) true := by
    simp [Def.op, World.step, ho]
  have r1 := a1.reachable
  rw [(Linked.step_w l0' _).1, estep] at lt r1
  rcases C17_method a0.reachable ho (signature_ne (S := S) n f) with ⟨p, h1, _⟩ | ⟨_, p, h1, h2, h3⟩
  · replace h1 : l0'.w.getMethod o (f.signature S n) = .val (some p) := h1
    rw [hnone] at h1; cases h1
  · have hx1 : (⟨p, f.signature S n⟩ : Item) ∈ ((l0'.w.createMethod o (f.signature S n) true).1.cont o .method).items := by
      rw [h2.items]; simp
    have hp : p = l0'.w.next := by
      have hx' := hx1
      rw [← estep] at hx'
      rcases i.step_mem _ hx' with hx' | ⟨_, hp, _⟩
      · have := (i.items _ _ _ hx').2.1
        rw [h2.fresh] at this; cases this
      · exact hp
    have hk1 : (l0'.w.createMethod o (f.signature S n) true).1.kind p = some .method := h2.kind
    have hfn : (l0'.step S (.method o n f)).1.fn p = some f := by
      unfold Linked.step
      dsimp only
      rw [estep, h1, hp, Val.created_next]
      simp
    obtain ⟨r2, g⟩ := later_grows r1 lt
    have ho1 : (l0'.w.createMethod o (f.signature S n) true).1.isContainer o = true := ((World.Inv.reachable r1).items _ _ _ hx1).1
    obtain ⟨s, hs⟩ := g.items o .method ho1
    refine ⟨⟨p, f.signature S n⟩, by rw [hs]; exact List.mem_append_left _ hx1, rfl, ?_, g.isContainer ho1, ?_⟩
    · have := keep p .method (by rw [(Linked.step_w l0' _).1, estep]; exact hk1)
      rw [this.1]; exact hfn
    · intro q hq hden hbefore
      have hown : OwnMethod (l0'.w.createMethod o (f.signature S n) true).1 q o p :=
        ⟨⟨p, f.signature S n⟩, rfl, (l0'.w.cont o .method).items, [], h2.items, hden, hbefore⟩
      refine ⟨((C59_own_members_partial r1 lt o q hq p ho1).1 hown).2, ?_⟩
      obtain ⟨it, h4, pre', post', h5, h6, h7⟩ := hown
      exact ⟨it, h4, pre', post' ++ s, by rw [hs, h5]; simp, h6, h7⟩

/-- C74: every call of `_method` for which the container had no method of this signature made one: whatever the program
    does afterwards, it is found under its signature and runs this function. -/
theorem C74_kept {h : List Def} {l : Linked} (a : Program rank S h l) {o : Ptr} {n : Str} {f : Fn} (hd : DefinedMethod rank S h o n f) :
    ∃ m, l.w.getMethod o (f.signature S n) = .val (some m) ∧ l.fn m = some f := by
  obtain ⟨pre, post, l0, e, a0, hnone⟩ := hd
  obtain ⟨x, _, _, h2, _, h3⟩ := defined_own a e a0 hnone
  have ho := container_of_getMethod (signature_ne n f) hnone
  have hf := getMethod_none_own (World.Inv.reachable a0.reachable) ho (signature_ne n f) hnone
  exact ⟨x.ptr, (h3 _ (signature_ne n f) (.inl rfl) ((findMethod_none_iff _ _).1 hf)).1, h2⟩

private theorem defined_own_property {h : List Def} {l : Linked} (a : Program rank S h l) {o : Ptr} {n : Str} {p : Property} (hn : n ≠ [])
    (hd : DefinedProperty rank S h o n p) : ∃ m, l.w.getProperty o n = .val (some m) ∧ OwnProperty l.w n o m ∧ l.pr m = some p := by
  obtain ⟨pre, post, l0, e, a0, hnone⟩ := hd
  have e' : h = (pre ++ [.property o n p]) ++ post := by rw [e]; simp
  obtain ⟨l1, a1, lt, keep⟩ := a.split e'
  obtain ⟨l0', a0', rfl, hl, hu, hd⟩ := a1.last
  have := a0'.unique a0
  subst this
  have i := World.Inv.reachable a0.reachable
  have ho : l0'.w.isContainer o = true := by
    unfold getProperty at hnone
    rw [isContainer_iff]
    split at hnone
    · exact .inr (by assumption)
    · exact .inl (by assumption)
    · cases hnone
  have estep : l0'.w.step (Def.op S (.property o n p)) = l0'.w.createProperty o n true := by
    simp [Def.op, World.step, ho]
  have r1 := a1.reachable
  rw [(Linked.step_w l0' _).1, estep] at lt r1
  rcases C17_property a0.reachable ho hn with ⟨m, h1, _⟩ | ⟨_, m, h1, h2, h3⟩
  · replace h1 : l0'.w.getProperty o n = .val (some m) := h1
    rw [hnone] at h1; cases h1
  · have hx1 : (⟨m, n⟩ : Item) ∈ ((l0'.w.createProperty o n true).1.cont o .property).items := by
      rw [h2.items]; simp
    have hp : m = l0'.w.next := by
      have hx' := hx1
      rw [← estep] at hx'
      rcases i.step_mem _ hx' with hx' | ⟨_, hp, _⟩
      · have := (i.items _ _ _ hx').2.1
        rw [h2.fresh] at this; cases this
      · exact hp
    have hk1 : (l0'.w.createProperty o n true).1.kind m = some .property := h2.kind
    have hfn : (l0'.step S (.property o n p)).1.pr m = some p := by
      unfold Linked.step
      dsimp only
      rw [estep, h1, hp, Val.created_next]
      simp
    obtain ⟨r2, g⟩ := later_grows r1 lt
    have ho1 : (l0'.w.createProperty o n true).1.isContainer o = true := ((World.Inv.reachable r1).items _ _ _ hx1).1
    obtain ⟨s, hs⟩ := g.items o .property ho1
    have hown : OwnProperty (l0'.w.createProperty o n true).1 n o m := ⟨_, hx1, rfl, rfl⟩
    refine ⟨m, ((C59_own_members_partial r1 lt o n hn m ho1).2 hown).2, ⟨⟨m, n⟩, by rw [hs]; exact List.mem_append_left _ hx1, rfl, rfl⟩, ?_⟩
    have := keep m .property (by rw [(Linked.step_w l0' _).1, estep]; exact hk1)
    rw [this.2]; exact hfn

/-- C74: the same for properties. -/
theorem C74_kept_property {h : List Def} {l : Linked} (a : Program rank S h l) {o : Ptr} {n : Str} {p : Property} (hn : n ≠ [])
    (hd : DefinedProperty rank S h o n p) : ∃ m, l.w.getProperty o n = .val (some m) ∧ l.pr m = some p := by
  obtain ⟨m, h1, _, h2⟩ := defined_own_property a hn hd
  exact ⟨m, h1, h2⟩

/-! ### calls -/

/-- C74: `variant::invoke` runs a function the program registered, for the class of the object or an ancestor, under that
    name or signature; if the program registered none it throws `runtime_error`. -/
theorem C74_call {E : Env} {h : List Def} {l : Linked} (a : Program rank S h l) (hw : E.w = l.w) (N : Nest) (junk : Fn) (i : Inst) (args : List Arg)
    (hn : ¬NullObject E i.v) (q : Str) (h0 : q ≠ []) :
    (∃ d c n f, ClassOf E i.v d ∧ Reaches l.w d c ∧ DefinedMethod rank S h c n f ∧ Denotes q (f.signature S n) ∧
      invokeNamed E N (l.fnOf junk) i q args = methodInvoke E N f i args) ∨
    ((∀ d c n f, ClassOf E i.v d → Reaches l.w d c → DefinedMethod rank S h c n f → ¬Denotes q (f.signature S n)) ∧
      invokeNamed E N (l.fnOf junk) i q args = .throw .runtimeError) := by
  have r : Reachable rank E.w := hw ▸ a.reachable
  have inv := World.Inv.reachable a.reachable
  obtain ⟨c1, c2, _⟩ := C45_invoke_partial r N (l.fnOf junk) i args hn q h0
  by_cases hf : ∃ d c m, ClassOf E i.v d ∧ Reaches E.w d c ∧ OwnMethod E.w q c m
  · obtain ⟨d, c, m, hd, hc, hm⟩ := hf
    have kd : E.w.kind d = some .cls := by
      obtain ⟨_, _, _, _, _, _, h⟩ := hd
      exact ((World.Inv.reachable r).find_cls h).1
    obtain ⟨⟨res, hres⟩, hsome, hnone, _⟩ := C29_methods r kd h0
    cases res with
    | none => exact absurd hm (hnone.1 hres c m hc)
    | some m' =>
      have hfind := (hsome m').1 hres
      left
      obtain ⟨c', hc', x, rfl, pre, post, e, hden, _⟩ := Finds.exists_own (World.Inv.reachable r) hfind
      rw [hw] at hc' e
      obtain ⟨n, f, h1, h2, h3⟩ := a.method (o := c') (x := x) (by rw [e]; simp)
      refine ⟨d, c', n, f, hd, hc', h1, ?_, ?_⟩
      · rw [← h2]; exact hden
      · rw [c1 d _ hd hfind]; simp only [Linked.fnOf, h3, Option.getD_some]
  · right
    refine ⟨fun d c n f hd hc hdef hden => ?_, c2 fun d c m hd hc hm => hf ⟨d, c, m, hd, hc, hm⟩⟩
    obtain ⟨pre, post, l0, e, a0, hnone⟩ := hdef
    obtain ⟨x, hx, hxn, _, ho, _⟩ := defined_own a e a0 hnone
    obtain ⟨res, e1, h1, h2⟩ := findMethod_spec q (l.w.cont c .method).items
    cases res with
    | none => exact h2.1 rfl x hx (hxn ▸ hden)
    | some y =>
      obtain ⟨p1, p2, e2, e3, e4⟩ := (h1 y).1 rfl
      exact hf ⟨d, c, y.ptr, hd, hw ▸ hc, y, rfl, p1, p2, by rw [hw]; exact e2, e3, e4⟩

/-- C74: an object of the class, asked for exactly the registered signature, runs the registered function. -/
theorem C74_by_signature_partial {E : Env} {h : List Def} {l : Linked} (a : Program rank S h l) (hw : E.w = l.w) (N : Nest) (junk : Fn) (i : Inst)
    (args : List Arg) (hn : ¬NullObject E i.v) {o : Ptr} (ho : ClassOf E i.v o) {n : Str} {f : Fn} (hd : DefinedMethod rank S h o n f) :
    invokeNamed E N (l.fnOf junk) i (f.signature S n) args = methodInvoke E N f i args := by
  have r : Reachable rank E.w := hw ▸ a.reachable
  obtain ⟨pre, post, l0, e, a0, hnone⟩ := hd
  have hc := container_of_getMethod (signature_ne n f) hnone
  have hf := getMethod_none_own (World.Inv.reachable a0.reachable) hc (signature_ne n f) hnone
  obtain ⟨x, _, _, h2, _, h3⟩ := defined_own a e a0 hnone
  have h4 := (h3 _ (signature_ne n f) (.inl rfl) ((findMethod_none_iff _ _).1 hf)).2
  rw [(C45_invoke_partial r N (l.fnOf junk) i args hn _ (signature_ne n f)).1 o x.ptr ho (.own (hw ▸ h4))]
  simp only [Linked.fnOf, h2, Option.getD_some]

/-- C74: asked for the name alone, it runs the function first registered for the class under that name. -/
theorem C74_by_name_partial {E : Env} {h : List Def} {l : Linked} (a : Program rank S h l) (hw : E.w = l.w) (N : Nest) (junk : Fn) (i : Inst)
    (args : List Arg) (hn : ¬NullObject E i.v) {o : Ptr} (ho : ClassOf E i.v o) {n : Str} (h0 : n ≠ []) (hp : '(' ∉ n) {f : Fn}
    {pre post : List Def} {l0 : Linked} (e : h = pre ++ .method o n f :: post) (a0 : Program rank S pre l0)
    (hnone : l0.w.getMethod o (f.signature S n) = .val none)
    (hfirst : ∀ f', ¬DefinedMethod rank S pre o n f') (hnames : ∀ n' f', DefinedMethod rank S pre o n' f' → '(' ∉ n') :
    invokeNamed E N (l.fnOf junk) i n args = methodInvoke E N f i args := by
  have r : Reachable rank E.w := hw ▸ a.reachable
  obtain ⟨x, _, _, h2, _, h3⟩ := defined_own a e a0 hnone
  have hb : ∀ y ∈ (l0.w.cont o .method).items, ¬Denotes n y.name := by
    intro y hy hden
    obtain ⟨n', f', h4, h5, _⟩ := a0.method hy
    obtain ⟨r', h6⟩ := signature_paren (S := S) n' f'
    rcases hden with hden | ⟨r'', hden, _⟩
    · rw [h5, h6] at hden
      exact hp (by rw [← hden]; simp)
    · rw [h5, h6] at hden
      have := (name_split (hnames n' f' h4) hp hden).1
      subst this
      exact hfirst f' h4
  obtain ⟨rs, hs⟩ := signature_paren (S := S) n f
  have h4 := (h3 n h0 (.inr ⟨rs, hs, hp⟩) hb).2
  rw [(C45_invoke_partial r N (l.fnOf junk) i args hn _ h0).1 o x.ptr ho (.own (hw ▸ h4))]
  simp only [Linked.fnOf, h2, Option.getD_some]

/-- C74: the signature a function is registered under: its name and, in parentheses and in order, its parameters; a member
    function has a reference to an object of its class, const if the function is, before them. -/
theorem C74_signature (n : Str) (f : Fn) : f.signature S n = n ++ '(' :: List.intercalate [',', ' ']
    ((match f.cls with | none => [] | some b => [S ⟨.lref, .base b ⟨f.const, false⟩⟩]) ++ f.params.map S) ++ [')'] := by
  unfold Fn.signature
  rw [C23_format]
  unfold Fn.uniform
  cases f.cls <;> simp

/-- C74: asking for a signature never finds a function with other parameter types or (among member functions) of another
    class or constness. -/
theorem C74_types {n k : Str} {f g : Fn} (hn : '(' ∉ n) (hk : '(' ∉ k) (ht : ∀ p, p ∈ f.uniform ∨ p ∈ g.uniform → TypeName (S p))
    (hS : ∀ p p', p ∈ f.uniform → p' ∈ g.uniform → S p = S p' → p = p') (hd : Denotes (g.signature S k) (f.signature S n)) :
    n = k ∧ f.uniform = g.uniform ∧
      (f.cls.isSome = g.cls.isSome → f.cls = g.cls ∧ f.params = g.params ∧ (f.cls.isSome = true → f.const = g.const)) := by
  have hk' : '(' ∈ g.signature S k := by
    obtain ⟨r, e⟩ := signature_paren (S := S) k g
    rw [e]; simp
  have e : f.signature S n = g.signature S k := by
    rcases hd with hd | ⟨_, _, hd⟩
    · exact hd
    · exact absurd hk' hd
  obtain ⟨e1, e2⟩ := C23_injective hn hk (fun t ht' => by obtain ⟨p, hp, rfl⟩ := List.mem_map.1 ht'; exact ht p (.inl hp))
    (fun t ht' => by obtain ⟨p, hp, rfl⟩ := List.mem_map.1 ht'; exact ht p (.inr hp)) e
  have hu : f.uniform = g.uniform := by
    clear e ht hd hk'
    generalize f.uniform = as at *
    generalize g.uniform = bs at *
    induction as generalizing bs with
    | nil => cases bs with | nil => rfl | cons => simp at e2
    | cons x xs ih =>
      cases bs with
      | nil => simp at e2
      | cons y ys =>
        simp only [List.map_cons, List.cons.injEq] at e2
        rw [hS x y (by simp) (by simp) e2.1, ih ys (fun p p' h1 h2 => hS p p' (by simp [h1]) (by simp [h2])) e2.2]
  refine ⟨e1, hu, fun hc => ?_⟩
  unfold Fn.uniform at hu
  cases hf : f.cls with
  | none =>
    cases hg : g.cls with
    | none => rw [hf, hg] at hu; exact ⟨rfl, hu, fun h => by simp at h⟩
    | some b => rw [hf, hg] at hc; simp at hc
  | some b =>
    cases hg : g.cls with
    | none => rw [hf, hg] at hc; simp at hc
    | some b' =>
      rw [hf, hg] at hu
      simp only [List.cons.injEq, RType.mk.injEq, CType.base.injEq, CV.mk.injEq, true_and, and_true] at hu
      exact ⟨by rw [hu.1.1], hu.2, fun _ => hu.1.2⟩

/-- C74: reading and setting by name accesses a property the program registered under that name, for the class of the
    object or an ancestor; if the program registered none they throw `runtime_error`. -/
theorem C74_access {E : Env} {h : List Def} {l : Linked} (a : Program rank S h l) (hw : E.w = l.w) (N : Nest) (junk : Property) (v : Vnt) (x : Arg)
    (hn : ¬NullObject E v) (q : Str) (h0 : q ≠ []) :
    (∃ d c p, ClassOf E v d ∧ Reaches l.w d c ∧ DefinedProperty rank S h c q p ∧ getNamed E N (l.prOf junk) v q = p.get E N (some v) ∧
      setNamed E N (l.prOf junk) v q x = p.set E N (some (false, v)) x) ∨
    ((∀ d c p, ClassOf E v d → Reaches l.w d c → ¬DefinedProperty rank S h c q p) ∧
      getNamed E N (l.prOf junk) v q = .throw .runtimeError ∧ setNamed E N (l.prOf junk) v q x = .throw .runtimeError) := by
  have r : Reachable rank E.w := hw ▸ a.reachable
  obtain ⟨c1, c2, _⟩ := C45_get_partial r N (l.prOf junk) v hn q h0
  obtain ⟨s1, s2, _⟩ := C45_set_partial r N (l.prOf junk) v x hn q h0
  by_cases hf : ∃ d c m, ClassOf E v d ∧ Reaches E.w d c ∧ OwnProperty E.w q c m
  · obtain ⟨d, c, m, hd, hc, hm⟩ := hf
    have kd : E.w.kind d = some .cls := by
      obtain ⟨_, _, _, _, _, _, h⟩ := hd
      exact ((World.Inv.reachable r).find_cls h).1
    obtain ⟨⟨res, hres⟩, hsome, hnone, _⟩ := C29_properties r kd h0
    cases res with
    | none => exact absurd hm (hnone.1 hres c m hc)
    | some m' =>
      have hfind := (hsome m').1 hres
      left
      obtain ⟨c', hc', y, hy, e1, e2⟩ := Finds.exists_own (World.Inv.reachable r) hfind
      rw [hw] at hc' hy
      obtain ⟨p, h1, h3⟩ := a.property hy
      rw [e1] at h1
      rw [e2] at h3
      refine ⟨d, c', p, hd, hc', h1, ?_, ?_⟩
      · rw [c1 d _ hd hfind]; simp only [Linked.prOf, h3, Option.getD_some]
      · rw [s1 d _ hd hfind]; simp only [Linked.prOf, h3, Option.getD_some]
  · right
    refine ⟨fun d c p hd hc hdef => ?_, c2 fun d c m hd hc hm => hf ⟨d, c, m, hd, hc, hm⟩, s2 fun d c m hd hc hm => hf ⟨d, c, m, hd, hc, hm⟩⟩
    obtain ⟨m, _, hm, _⟩ := defined_own_property a h0 hdef
    exact hf ⟨d, c, m, hd, hw ▸ hc, hw ▸ hm⟩

/-- C74: an object of the class, asked for the property, accesses the one registered for the class. -/
theorem C74_own_access_partial {E : Env} {h : List Def} {l : Linked} (a : Program rank S h l) (hw : E.w = l.w) (N : Nest) (junk : Property) (v : Vnt)
    (x : Arg) (hn : ¬NullObject E v) {o : Ptr} (ho : ClassOf E v o) {q : Str} (h0 : q ≠ []) {p : Property} (hd : DefinedProperty rank S h o q p) :
    getNamed E N (l.prOf junk) v q = p.get E N (some v) ∧ setNamed E N (l.prOf junk) v q x = p.set E N (some (false, v)) x := by
  have r : Reachable rank E.w := hw ▸ a.reachable
  obtain ⟨m, _, hm, h3⟩ := defined_own_property a h0 hd
  rw [(C45_get_partial r N (l.prOf junk) v hn q h0).1 o m ho (.own (hw ▸ hm)),
    (C45_set_partial r N (l.prOf junk) v x hn q h0).1 o m ho (.own (hw ▸ hm))]
  simp only [Linked.prOf, h3, Option.getD_some, and_self]

/-! ### registrations that are dropped -/

/-- C74: when the container has, or inherits, a method of the signature, `_method` does nothing at all: the function given
    to it is never run. -/
theorem C74_dropped {h : List Def} {l : Linked} (a : Program rank S h l) {o : Ptr} {n : Str} {f : Fn} {m : Ptr}
    (hm : l.w.getMethod o (f.signature S n) = .val (some m)) : l.step S (.method o n f) = (l, .val (some m)) := by
  have ho := container_of_getMethod (signature_ne n f) hm
  have i := World.Inv.reachable a.reachable
  have hk : ∃ k, l.w.kind m = some k := by
    rcases (isContainer_iff _ _).1 ho with hk | hk
    · simp only [getMethod, if_neg (signature_ne (S := S) n f), hk] at hm
      obtain ⟨r, e, hr⟩ := ownMethod_spec l.w o (f.signature S n)
      rw [e] at hm
      cases hm
      obtain ⟨it, rfl, pre, post, e, _⟩ := (hr _).1 rfl
      exact ⟨_, (i.items o .method it (by rw [e]; simp)).2.1⟩
    · obtain ⟨c, _, it, rfl, pre, post, e, _⟩ := Finds.exists_own i ((C29_methods a.reachable hk (signature_ne n f)).2.1 m |>.1 hm)
      exact ⟨_, (i.items c .method it (by rw [e]; simp)).2.1⟩
  obtain ⟨k, hk⟩ := hk
  have hne := i.kind_ne_next hk
  unfold Linked.step
  simp only [Def.op, World.step, if_pos ho, C30_never_overrides a.reachable hm, Val.created, if_neg hne, Linked.convs, Def.conv]

namespace ExL
open ExV ExI

/-- `B&`, `int` -/
def spell (t : RType) : Str :=
  if t = ⟨.lref, cls B⟩ then ['B', '&'] else if t = ⟨.none, Ex.int⟩ then ['i', 'n', 't'] else ['?']
/-- `static void f(B &)` -/
def fStatic : Fn := ⟨none, false, [⟨.lref, cls B⟩], none⟩
/-- `static void f(int)` -/
def fInt : Fn := ⟨none, false, [⟨.none, Ex.int⟩], none⟩
def prog : List Def :=
  [.registerType 1, .registerType 2, .cls 1 ['B'] 1, .cls 1 ['L'] 2, .base 3 1 id,
   .method 2 ['f'] f6, .method 2 ['f'] fStatic, .method 2 ['f'] fInt, .method 3 ['f'] fInt, .property 2 ['p'] field]
def final : Linked := Linked.init.runAll spell prog
theorem final_program : Program id spell prog final := by
  exact Program.runAll (rank := id) (S := spell) .nil prog (by decide +kernel)
/-- `B` at 5000, in this program -/
def vB : Vnt := ⟨some ⟨true, cls B⟩, 1000, 5000⟩
def env' : Env := { env with w := final.w }
end ExL

open ExL ExI ExV in
/-- C74 is false as stated: the member function `B::f()` and the static function `f(B&)` have one signature, and a static
    function has the signature of the one it hides in a base class. The second registration is dropped without an error,
    and the function that was registered first runs. -/
theorem C74_false : Program id spell prog final ∧
    .method 2 ['f'] fStatic ∈ prog ∧ .method 3 ['f'] fInt ∈ prog ∧
    final.w.getMethod 2 (fStatic.signature spell ['f']) = .val (some 4) ∧ final.fn 4 = some f6 ∧
    final.w.getMethod 3 (fInt.signature spell ['f']) = .val (some 5) ∧ final.fn 5 = some fInt ∧ final.w.owner 5 = some 2 ∧
    (∀ m, final.fn m ≠ some fStatic) ∧ (final.w.cont 3 .method).items = [] := by
  refine ⟨final_program, by simp [prog], by simp [prog], by decide +kernel, by decide +kernel, by decide +kernel, by decide +kernel, by decide +kernel, ?_, by decide +kernel⟩
  have e : final.fn = upd (upd (fun _ => none) 4 (some f6)) 5 (some fInt) := rfl
  intro m
  rw [e]
  by_cases h5 : m = 5
  · subst h5; simp [fInt, fStatic]
  · rw [upd_ne _ _ h5]
    by_cases h4 : m = 4
    · subst h4; simp [f6, fStatic]
    · rw [upd_ne _ _ h4]; simp

open ExL ExI ExV in
/-- the hypotheses of the theorems above are met -/
example : env'.w = final.w ∧ ClassOf env' vB 2 ∧ ¬NullObject env' vB ∧ DefinedMethod id spell prog 2 ['f'] f6 ∧
    f6.signature spell ['f'] = ['f', '(', 'B', '&', ')'] ∧ DefinedProperty id spell prog 2 ['p'] field ∧
    invokeNamed env' nest (final.fnOf f9) (inst vB) ['f'] [] = .ok (.called (some (.at 5000)) []) := by
  have p5 : Program id spell (prog.take 5) (Linked.init.runAll spell (prog.take 5)) := by
    simpa using Program.runAll (rank := id) (S := spell) .nil (prog.take 5) (by decide +kernel)
  have p9 : Program id spell (prog.take 9) (Linked.init.runAll spell (prog.take 9)) := by
    simpa using Program.runAll (rank := id) (S := spell) .nil (prog.take 9) (by decide +kernel)
  refine ⟨rfl, ⟨B, 5000, 1, 5000, .object _ _ _ rfl (.ref _ rfl), rfl, by decide +kernel⟩, fun ⟨_, _, h⟩ => (by cases h),
    ⟨_, _, _, rfl, p5, by decide +kernel⟩, by decide +kernel, ⟨_, _, _, rfl, p9, by decide +kernel⟩, by decide +kernel⟩

end Rtti.Props
