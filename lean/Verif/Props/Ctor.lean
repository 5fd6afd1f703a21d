import Verif.Props.Linked
/-
C76.
-/
set_option autoImplicit false
namespace Rtti.Props
open Rtti Spec World Rtti.Val

variable {rank : TypeId → Nat} {S : RType → Str}

/-! ### constructor objects -/

/-- C76: every constructor object of a class runs the constructor given to the call of `_constructor` that made it, for this
    class and with this signature, and hands back a new object of the class by value. -/
theorem C76_object {h : List Def} {l : Linked} (a : Program rank S h l) {o : Ptr} {x : Item} (hx : x ∈ (l.w.cont o .constructor).items) :
    ∃ c, DefinedCtor rank S h o c ∧ x.name = ctorSignature (c.ctor S) ∧ ∃ f, l.fn x.ptr = some f ∧ f.cls = none ∧ f.params = c.params ∧
      f.result = some ⟨.none, .base c.cls ⟨false, false⟩⟩ := by
  obtain ⟨c, h1, h2, h3⟩ := a.ctor hx
  exact ⟨c, h1, h2, _, h3, rfl, rfl, rfl⟩

private theorem container_of {w : World} {o : Ptr} {q : Str} {r : Option Ptr} (h : w.getConstructor o q = .val r) : w.isContainer o = true := by
  unfold getConstructor at h
  split at h
  · assumption
  · cases h

private theorem first_iff {w : World} {o : Ptr} (ho : w.isContainer o = true) (q : Str) (m : Ptr) : w.getConstructor o q = .val (some m) ↔
    ∃ x, IsFirst (fun it : Item => Denotes q it.name) (w.cont o .constructor).items x ∧ x.ptr = m := by
  unfold getConstructor
  rw [if_pos ho]
  obtain ⟨r, e, h1, h2⟩ := findMethod_spec q (w.cont o .constructor).items
  rw [e]
  cases r with
  | none =>
    refine ⟨fun h => (by cases h), fun ⟨x, hx, _⟩ => ?_⟩
    have := (h1 x).2 hx
    cases this
  | some y =>
    have hy := (h1 y).1 rfl
    refine ⟨fun h => ⟨y, hy, by simpa using h⟩, fun ⟨x, hx, e⟩ => ?_⟩
    have := (h1 x).2 hx
    cases this
    simp [e]

private theorem defined_own_ctor {h : List Def} {l : Linked} (a : Program rank S h l) {pre post : List Def} {o : Ptr} {c : CtorDef} {l0 : Linked}
    (e : h = pre ++ .ctor o c :: post) (a0 : Program rank S pre l0) (hnone : l0.w.getConstructor o (ctorSignature (c.ctor S)) = .val none) :
    ∃ p, l.fn p = some c.asFn ∧ ∀ q, Denotes q (ctorSignature (c.ctor S)) → (∀ y ∈ (l0.w.cont o .constructor).items, ¬Denotes q y.name) →
      l.w.getConstructor o q = .val (some p) := by
  have e' : h = (pre ++ [.ctor o c]) ++ post := by rw [e]; simp
  obtain ⟨l1, a1, lt, keep⟩ := a.split e'
  obtain ⟨l0', a0', rfl, hl, hu, hd⟩ := a1.last
  have := a0'.unique a0
  subst this
  have i := World.Inv.reachable a0.reachable
  have ho := container_of hnone
  have estep : l0'.w.step (Def.op S (.ctor o c)) = l0'.w.createConstructor o (ctorSignature (c.ctor S)) true := by
    simp [Def.op, World.step, ho]
  have r1 := a1.reachable
  rw [(Linked.step_w l0' _).1, estep] at lt r1
  rcases C17_constructor a0.reachable ho (ctorSignature (c.ctor S)) with ⟨p, h1, _⟩ | ⟨_, p, h1, h2, h3⟩
  · replace h1 : l0'.w.getConstructor o (ctorSignature (c.ctor S)) = .val (some p) := h1
    rw [hnone] at h1; cases h1
  · have hx1 : (⟨p, ctorSignature (c.ctor S)⟩ : Item) ∈ ((l0'.w.createConstructor o (ctorSignature (c.ctor S)) true).1.cont o .constructor).items := by
      rw [h2.items]; simp
    have hp : p = l0'.w.next := by
      have hx' := hx1
      rw [← estep] at hx'
      rcases i.step_mem _ hx' with hx' | ⟨_, hp, _⟩
      · have := (i.items _ _ _ hx').2.1
        rw [h2.fresh] at this; cases this
      · exact hp
    have hk1 : (l0'.w.createConstructor o (ctorSignature (c.ctor S)) true).1.kind p = some .constructor := h2.kind
    have hfn : (l0'.step S (.ctor o c)).1.fn p = some c.asFn := by
      unfold Linked.step
      dsimp only
      rw [estep, h1, hp, Val.created_next]
      simp
    have ho1 : (l0'.w.createConstructor o (ctorSignature (c.ctor S)) true).1.isContainer o = true := ((World.Inv.reachable r1).items _ _ _ hx1).1
    refine ⟨p, ?_, fun q hden hbefore => (C59_items_stable r1 lt o).2.2 q p ?_⟩
    · have := keep p .constructor (by rw [(Linked.step_w l0' _).1, estep]; exact hk1)
      rw [this.1]; exact hfn
    · rw [first_iff ho1]
      exact ⟨⟨p, ctorSignature (c.ctor S)⟩, ⟨(l0'.w.cont o .constructor).items, [], h2.items, hden, hbefore⟩, rfl⟩

/-- C76: every call of `_constructor` for which the class had no constructor of this signature made one: whatever the program
    does afterwards, it is found under its signature and runs this constructor. -/
theorem C76_kept {h : List Def} {l : Linked} (a : Program rank S h l) {o : Ptr} {c : CtorDef} (hd : DefinedCtor rank S h o c) :
    ∃ m, l.w.getConstructor o (ctorSignature (c.ctor S)) = .val (some m) ∧ l.fn m = some c.asFn := by
  obtain ⟨pre, post, l0, e, a0, hnone⟩ := hd
  obtain ⟨p, h1, h2⟩ := defined_own_ctor a e a0 hnone
  have ho := container_of hnone
  exact ⟨p, h2 _ (.inl rfl) ((findMethod_none_iff _ _).1 (getConstructor_none ho hnone)), h1⟩

/-- C76: what is found under a query is a constructor the program registered for this class, and constructing runs it: it is
    called with the k-th argument passed to its k-th parameter, or the call fails as `CallsStatic` says. -/
theorem C76_construct {E : Env} {h : List Def} {l : Linked} (a : Program rank S h l) (hw : E.w = l.w) (N : Nest) (hN : N.vt.kind = .cls) (junk : Fn)
    {o : Ptr} {q : Str} {m : Ptr} (hm : l.w.getConstructor o q = .val (some m)) :
    ∃ c, DefinedCtor rank S h o c ∧ Denotes q (ctorSignature (c.ctor S)) ∧ l.fnOf junk m = c.asFn ∧
      (FnOk c.asFn → ∀ args, args.length ≤ 10 → (∀ x ∈ args, ArgOk E N x) → ∀ R,
        (staticInvoke E N (l.fnOf junk m) args = R ↔ CallsStatic E N ⟨none, false, c.params, some ⟨.none, .base c.cls ⟨false, false⟩⟩⟩ args R)) := by
  obtain ⟨x, ⟨pre, post, e, hden, _⟩, rfl⟩ := (first_iff (container_of hm) q m).1 hm
  obtain ⟨c, h1, h2, h3⟩ := a.ctor (x := x) (by rw [e]; simp)
  have hf : l.fnOf junk x.ptr = c.asFn := by simp [Linked.fnOf, h3]
  exact ⟨c, h1, h2 ▸ hden, hf, fun hok args hl ha R => by rw [hf]; exact C73_static (hw ▸ a.reachable) N hN c.asFn hok args hl ha R⟩

/-- the only parameter is an object of the class itself -/
def OfItself (c : CtorDef) (p : RType) : Prop := c.params = [p] ∧ ∃ q, p.t = .base c.cls q

/-- C76: the signatures constructors are registered under: fixed ones for the default, copy and move constructor; for the others
    the name given, or `constructor`, and in parentheses and in order the parameters. -/
theorem C76_signature (c : CtorDef) (hk : c.cls.kind = .cls) :
    (c.params = [] → ctorSignature (c.ctor S) = "d_constructor".toList) ∧
    (∀ p, OfItself c p → p.ref ≠ .rref → ctorSignature (c.ctor S) = "c_constructor".toList) ∧
    (∀ p, OfItself c p → p.ref = .rref → ctorSignature (c.ctor S) = "m_constructor".toList) ∧
    (c.params ≠ [] → (∀ p, ¬OfItself c p) → ctorSignature (c.ctor S) =
      (if c.name = [] then "constructor".toList else c.name) ++ '(' :: List.intercalate [',', ' '] (c.params.map S) ++ [')']) := by
  have hself : ∀ p : RType, p.t.decay = .base c.cls ⟨false, false⟩ ↔ ∃ q, p.t = .base c.cls q := by
    intro p
    cases e : p.t with
    | base b q =>
      simp only [CType.decay, CType.base.injEq]
      by_cases hf : b.kind = .func
      · rw [if_pos hf]
        refine ⟨fun h => (by cases h), fun ⟨_, h, _⟩ => ?_⟩
        subst h; rw [hk] at hf; cases hf
      · rw [if_neg hf]
        simp only [CType.base.injEq, and_true]
        exact ⟨fun h => ⟨q, h, rfl⟩, fun ⟨_, h, _⟩ => h⟩
    | ptr q t => simp [CType.decay]
    | arr n t => simp [CType.decay]
  refine ⟨fun h => ?_, fun p ⟨h1, h2⟩ h3 => ?_, fun p ⟨h1, h2⟩ h3 => ?_, fun h1 h2 => ?_⟩
  · change _ = defaultSig
    simp [ctorSignature, CtorDef.ctor, h]
  · change _ = copySig
    simp [ctorSignature, CtorDef.ctor, h1, (hself p).2 h2, h3]
  · change _ = moveSig
    simp [ctorSignature, CtorDef.ctor, h1, (hself p).2 h2, h3]
  · change _ = (if c.name = [] then ctorSig else c.name) ++ _ ++ _
    rcases e : c.params with _ | ⟨p, _ | ⟨p', ps⟩⟩
    · exact absurd e h1
    · have : ¬p.t.decay = .base c.cls ⟨false, false⟩ := fun h => h2 p ⟨e, (hself p).1 h⟩
      simp [ctorSignature, CtorDef.ctor, e, this, C23_format, ctorName]
    · simp [ctorSignature, CtorDef.ctor, e, C23_format, ctorName, Function.comp_def]

/-! ### conversions -/

private theorem step_conv (l : Linked) (d : Def) : (l.step S d).1.conv = l.convs d (l.w.step (d.op S)).2 := by
  unfold Linked.step; dsimp only; split <;> rfl

/-- a step that registers a converter does not throw before it does -/
private theorem convs_eq {l : Linked} (r : Reachable rank l.w) (d : Def) (hu : (l.w.step (d.op S)).2 ≠ .ub) :
    (l.step S d).1.conv = match d.conv with | some k => addConv l.conv k | none => l.conv := by
  rw [step_conv]
  cases d with
  | ctor o c =>
    have ho : l.w.isContainer o = true := by
      cases ho : l.w.isContainer o with
      | true => rfl
      | false => simp [Def.op, World.step, ho] at hu
    have : ∃ p, (l.w.step (Def.op S (.ctor o c))).2 = .val p := by
      simp only [Def.op, World.step, if_pos ho]
      rcases C17_constructor r ho (ctorSignature (c.ctor S)) with ⟨p, _, h⟩ | ⟨_, p, h, _⟩
      · exact ⟨_, h.1⟩
      · exact ⟨_, h⟩
    obtain ⟨p, e⟩ := this
    rw [e]; rfl
  | converter i s t c =>
    have : ∃ p, (l.w.step (Def.op S (.converter i s t c))).2 = .val p := by
      simp only [Def.op, World.step]
      split <;> exact ⟨_, rfl⟩
    obtain ⟨p, e⟩ := this
    rw [e]; rfl
  | _ => simp only [Linked.convs, Def.conv]; split <;> rfl

private theorem offers_iff (d : Def) (hk : ∀ o c, d = .ctor o c → c.cls.kind = .cls) (s t : CType) (k : Conv) :
    d.conv = some (s.fullDecay, t.fullDecay, k) ↔ Offers d s t k := by
  cases d with
  | converter i s' t' c =>
    simp only [Def.conv, Option.some.injEq, Prod.mk.injEq, fullDecay_iff]
    constructor
    · rintro ⟨h1, h2, rfl⟩; exact .asked _ _ _ _ _ _ h1 h2
    · intro h; cases h with | asked _ _ _ _ _ _ h1 h2 => exact ⟨h1, h2, rfl⟩
  | ctor o c =>
    have hc := hk o c rfl
    have hd : ∀ q, CType.fullDecay (.base c.cls q) = .base c.cls ⟨false, false⟩ := fun q => by
      simp [CType.fullDecay, CType.decay, hc, CType.removeAllCv]
    have ht : CType.fullDecay t = .base c.cls ⟨false, false⟩ → ∃ q, t = .base c.cls q := by
      intro h
      rw [← hd ⟨false, false⟩, fullDecay_iff] at h
      rcases h with ⟨e, e', _, h, _⟩ | ⟨b, q, q', _, rfl, h⟩
      · cases h with | func _ _ hf => simp [hc] at hf
      · cases h; exact ⟨q, rfl⟩
    constructor
    · intro h
      simp only [Def.conv, CtorDef.converts] at h
      split at h
      · rename_i p hp
        split at h
        · rename_i hi
          simp only [Bool.and_eq_true, decide_eq_true_eq] at hi
          simp only [Option.map_some, Option.some.injEq, Prod.mk.injEq] at h
          obtain ⟨h1, h2, rfl⟩ := h
          obtain ⟨q, rfl⟩ := ht h2.symm
          exact .ctor o c p q s hp hi.1 (fun h => hi.2 (by rw [(fullDecay_iff _ _).2 h, hd])) ((fullDecay_iff _ _).1 h1)
        · cases h
      · cases h
    · intro h
      cases h with
      | ctor _ _ p q _ hp hi h1 h2 =>
        have hn : p.t.fullDecay ≠ .base c.cls ⟨false, false⟩ := fun h => h1 ((fullDecay_iff _ _).1 (by rw [h, hd]))
        simp only [Def.conv, CtorDef.converts, hp, hi, hd, Bool.true_and, decide_eq_true_eq]
        rw [if_pos hn, (fullDecay_iff _ _).2 h2]
        rfl
  | _ =>
    refine ⟨fun h => (by simp [Def.conv] at h), fun h => (by cases h)⟩

private theorem addConv_at (m : CType → CType → Option Conv) (k : CType × CType × Conv) (s t : CType) :
    addConv m k s t = (m s t).or (if s = k.1 ∧ t = k.2.1 then some k.2.2 else none) := by
  unfold addConv
  by_cases h : s = k.1 ∧ t = k.2.1
  · rw [if_pos h]
    cases e : m k.1 k.2.1 with
    | some x => simp [h.1, h.2, e]
    | none => simp [h.1, h.2, e]
  · rw [if_neg h]
    cases m k.1 k.2.1 with
    | some x => simp
    | none => simp [h]

/-- what a step registers for these types -/
private def offer (s t : CType) (d : Def) : Option Conv :=
  match d.conv with
  | some k => if s.fullDecay = k.1 ∧ t.fullDecay = k.2.1 then some k.2.2 else none
  | none => none

private theorem offer_iff (s t : CType) (d : Def) (k : Conv) : offer s t d = some k ↔ d.conv = some (s.fullDecay, t.fullDecay, k) := by
  unfold offer
  split
  · rename_i x e
    rw [e]
    obtain ⟨x1, x2, x3⟩ := x
    simp only [Option.ite_none_right_eq_some, Option.some.injEq, Prod.mk.injEq]
    exact ⟨fun ⟨⟨h1, h2⟩, h3⟩ => ⟨h1.symm, h2.symm, h3⟩, fun ⟨h1, h2, h3⟩ => ⟨⟨h1.symm, h2.symm⟩, h3⟩⟩
  · rename_i e; rw [e]; simp

private theorem conv_first {h : List Def} {l : Linked} (a : Program rank S h l) (s t : CType) :
    l.conv s.fullDecay t.fullDecay = h.findSome? (offer s t) := by
  induction a with
  | nil => rfl
  | snoc h l d a hl hu hd ih =>
    rw [convs_eq a.reachable d (by rw [← (l.step_w d).2]; exact hu), List.findSome?_append, ← ih]
    cases e : d.conv with
    | none => simp [offer, e]
    | some k =>
      simp only [addConv_at]
      simp [offer, e]

/-- C76: the conversion between two types, up to cv and decay, is the first one the program registered for them, by
    `registerConverter` or by a constructor; there is none if none was registered. -/
theorem C76_conversion {h : List Def} {l : Linked} (a : Program rank S h l) (hk : ∀ o c, .ctor o c ∈ h → c.cls.kind = .cls) (s t : CType) :
    (∀ k, l.conv s.fullDecay t.fullDecay = some k ↔
      ∃ pre d post, h = pre ++ d :: post ∧ Offers d s t k ∧ ∀ d' ∈ pre, ∀ k', ¬Offers d' s t k') ∧
    (l.conv s.fullDecay t.fullDecay = none ↔ ∀ d ∈ h, ∀ k, ¬Offers d s t k) := by
  have hof : ∀ d ∈ h, ∀ k, offer s t d = some k ↔ Offers d s t k := fun d hd k => by
    rw [offer_iff]; exact offers_iff d (fun o c e => hk o c (e ▸ hd)) s t k
  have hno : ∀ d ∈ h, offer s t d = none ↔ ∀ k, ¬Offers d s t k := fun d hd => by
    rw [Option.eq_none_iff_forall_ne_some]
    exact forall_congr' fun k => not_congr (hof d hd k)
  rw [conv_first a]
  constructor
  · intro k
    rw [List.findSome?_eq_some_iff]
    constructor
    · rintro ⟨pre, d, post, rfl, h1, h2⟩
      exact ⟨pre, d, post, rfl, (hof d (by simp) k).1 h1, fun d' hd' => (hno d' (by simp [hd'])).1 (h2 d' hd')⟩
    · rintro ⟨pre, d, post, rfl, h1, h2⟩
      exact ⟨pre, d, post, rfl, (hof d (by simp) k).2 h1, fun d' hd' => (hno d' (by simp [hd'])).2 (h2 d' hd')⟩
  · rw [List.findSome?_eq_none_iff]
    exact forall_congr' fun d => forall_congr' fun hd => hno d hd

/-- C76: a variant that holds an object of a type with a constructor for it, neither the class nor derived from it, is converted
    by that constructor if that conversion was registered first; an exception of the constructor is reported as a failed
    conversion. -/
theorem C76_to {E : Env} {h : List Def} {l : Linked} (a : Program rank S h l) (hw : E.w = l.w) (hc : E.conv = l.conv)
    (hk : ∀ o c, .ctor o c ∈ h → c.cls.kind = .cls) {v : Vnt} (sd : Sound E v) {u : CType} {a₀ : Addr} (st : Stands v u a₀) (hu : u.pointerArity < 65536)
    (const : Bool) {pre post : List Def} {o : Ptr} {c : CtorDef} {p : RType} (e : h = pre ++ .ctor o c :: post) (hp : c.params = [p]) (hi : c.implicit = true)
    (hs : SameDecay p.t u) (hn : ¬SameDecay u (.base c.cls ⟨false, false⟩))
    (hfirst : ∀ d ∈ pre, ∀ k, ¬Offers d u (.base c.cls ⟨false, false⟩) k) (hup : ∀ x, ¬UpClass E v (.base c.cls ⟨false, false⟩) x) {x : Addr} (hx : Place v x) :
    to E v const (.base c.cls ⟨false, false⟩) = if c.throws x then .throw .badVariantConvert else .ok (.converted c.fn x) := by
  have hcls := hk o c (by rw [e]; simp)
  obtain ⟨hh, eh, rfl⟩ := st.held
  have htype : v.type (if const then .lrefConst else .lref) = hh.type (if const then .lrefConst else .lref) := vtype eh _
  have hfd : (v.type (if const then .lrefConst else .lref)).t.fullDecay = hh.u.fullDecay := by rw [htype, type_fullDecay]
  have hsd : ¬SameDecay (v.type (if const then .lrefConst else .lref)).t (.base c.cls ⟨false, false⟩) := by
    rw [← fullDecay_iff, hfd, fullDecay_iff]; exact hn
  have hconv : E.conv (v.type (if const then .lrefConst else .lref)).t.fullDecay (CType.fullDecay (.base c.cls ⟨false, false⟩)) =
      some ⟨c.fn, .functor, fun a => .returns false (c.throws a)⟩ := by
    rw [hfd, hc, (C76_conversion a hk hh.u _).1]
    refine ⟨pre, _, post, e, .ctor o c p _ _ hp hi (fun h => hn ?_) hs, hfirst⟩
    rw [← fullDecay_iff] at h hs ⊢
    rw [← hs, h]
  have hdepth : ∃ m, Depth (v.type (if const then .lrefConst else .lref)).t m ∧ m < 65536 := by
    refine ⟨_, (depth_iff _ _).2 rfl, ?_⟩
    rw [htype, type_arity]; exact hu
  refine (C43_to_exact (hw ▸ a.reachable) sd st const _ (by simp) (fun b q h => by cases h; simp [hcls]) _).2 (.inr (.inr ⟨?_, ?_, ?_⟩))
  · rintro ⟨_, _, _, q, d, r, h, _⟩
    cases h
  · obtain ⟨m, hm, hlt⟩ := hdepth
    intro h
    have := (C10_terminates_iff _ _ m 0 hm (.base _ _) hlt (by decide)).1 h
    obtain ⟨_, h1, h2, _⟩ := this
    subst h1
    simp at h2
  · refine .conv x _ _ ?_ hx hconv ?_
    · rintro ⟨_, h | ⟨y, h | h⟩⟩
      · exact hsd h
      · exact hup y h
      · obtain ⟨_, _, _, _, _, _, _, _, _, _, _, h, _⟩ := h
        cases h
    · cases ht : c.throws x with
      | true => exact .swallowed (.inr ⟨false, by simp [ht]⟩) rfl
      | false => exact .done (c := ⟨c.fn, .functor, fun a => .returns false (c.throws a)⟩) false (by simp [ht]) (by simp)

namespace ExC
open ExV ExI ExL
/-- a class -/
def K : Base := ⟨103, .cls, 8, all⟩
/-- `int *`, `int const *` -/
def ip : CType := .ptr ⟨false, false⟩ Ex.int
def icp : CType := .ptr ⟨false, false⟩ (.base Ex.intB ⟨true, false⟩)
/-- `K(int)`, `K(int *)`, `K(B const &)`, all implicit; the first throws for the object at 711 -/
def kInt : CtorDef := ⟨K, [], [⟨.none, Ex.int⟩], true, 31, fun a => a == 711⟩
def kPtr : CtorDef := ⟨K, [], [⟨.none, ip⟩], true, 32, fun _ => false⟩
def kB : CtorDef := ⟨K, [], [⟨.lref, ccls B⟩], true, 33, fun _ => false⟩
def spellC (t : RType) : Str :=
  if t = ⟨.lref, ccls B⟩ then ['B', ' ', 'c', 'o', 'n', 's', 't', '&'] else if t = ⟨.none, Ex.int⟩ then ['i', 'n', 't']
  else if t = ⟨.none, ip⟩ then ['i', 'n', 't', '*'] else ['?']
/-- `L` derives from `B` -/
def progC : List Def :=
  [.registerType 1, .registerType 2, .registerType 3, .cls 1 ['B'] 1, .cls 1 ['L'] 2, .cls 1 ['K'] 3, .base 3 1 id,
   .ctor 4 kInt, .ctor 4 kPtr, .ctor 4 kB]
def finalC : Linked := Linked.init.runAll spellC progC
theorem finalC_program : Program id spellC progC finalC := by
  exact Program.runAll (rank := id) (S := spellC) .nil progC (by decide +kernel)
def envC : Env := { env with w := finalC.w, conv := finalC.conv }
/-- `int const *` in place -/
def vP : Vnt := ⟨some ⟨false, icp⟩, 1000, 5000⟩
/-- `L` by value, on the heap; a reference to a `B` at 5000 -/
def vL : Vnt := ⟨some ⟨false, cls L⟩, 1000, 5000⟩
def rB : Vnt := ⟨some ⟨true, cls B⟩, 1000, 5000⟩
end ExC

open ExC ExV ExI ExL in
/-- C76 is false as stated: a constructor taking `int*` is run on an `int const*`, because the types of a conversion are
    compared without const at any level. The constructor can then write to the const object. -/
theorem C76_const_false : Program id spellC progC finalC ∧ envC.w = finalC.w ∧ envC.conv = finalC.conv ∧ .ctor 4 kPtr ∈ progC ∧
    kPtr.params = [⟨.none, ip⟩] ∧ Stands vP icp 1000 ∧ ¬Binds ⟨.none, icp⟩ ⟨.none, ip⟩ ∧
    to envC vP false (cls K) = .ok (.converted kPtr.fn 1000) := by
  refine ⟨finalC_program, rfl, rfl, by simp [progC], rfl, .inPlace icp rfl (by simp [icp]) (by decide), fun h => ?_, by decide +kernel⟩
  have := h.keep 1 _ _ (.ptr _ (.here _)) (.ptr _ (.here _)) (by simp) (.base _ _)
  cases this

open ExC ExV ExI ExL in
/-- C76 is false as stated: with a constructor `K(B const&)`, a variant holding a `B` is converted to `K`; one holding an `L`,
    which is a `B`, is not. -/
theorem C76_derived_false : Program id spellC progC finalC ∧ envC.w = finalC.w ∧ envC.conv = finalC.conv ∧ .ctor 4 kB ∈ progC ∧
    kB.params = [⟨.lref, ccls B⟩] ∧ Stands vL (cls L) 5000 ∧ Subobject envC vL B 5000 ∧
    to envC rB false (cls K) = .ok (.converted kB.fn 5000) ∧ to envC vL false (cls K) = .throw .badVariantConvert := by
  refine ⟨finalC_program, rfl, rfl, by simp [progC], rfl, .heap (ExV.cls L) rfl (by simp [ExV.cls]) (by decide), ?_, by decide +kernel, by decide +kernel⟩
  exact ⟨3, 2, 5000, [id], ⟨L, 5000, 2, .object L _ _ rfl (.heap (ExV.cls L) rfl (by simp [ExV.cls]) (by decide)), rfl, by decide +kernel, by decide +kernel⟩,
    .step (pre := []) (post := []) (t := 1) (m := 2) (by decide) rfl (by decide +kernel) (by simp) (.refl _), rfl⟩

open ExC ExV ExI ExL in
/-- the hypotheses of the theorems above are met: `K(int)` makes objects, and conversions, of an `int` -/
example : DefinedCtor id spellC progC 4 kInt ∧ FnOk kInt.asFn ∧ Place vI 1000 ∧ (∀ x, ¬UpClass envC vI (ExV.cls K) x) ∧
    (∀ d ∈ progC.take 7, ∀ k, ¬Offers d Ex.int (ExV.cls K) k) ∧
    ctorSignature (kInt.ctor spellC) = "constructor(int)".toList ∧ finalC.w.getConstructor 4 "constructor(int)".toList = .val (some 5) ∧
    staticInvoke envC nest (finalC.fnOf f9 5) [anInt] = .ok (.called none [.value (.copyOf 710)]) ∧
    to envC vI false (ExV.cls K) = .ok (.converted 31 1000) ∧
    to envC ⟨some ⟨true, Ex.int⟩, 1000, 711⟩ false (ExV.cls K) = .throw .badVariantConvert := by
  have p7 : Program id spellC (progC.take 7) (Linked.init.runAll spellC (progC.take 7)) := by
    simpa using Program.runAll (rank := id) (S := spellC) .nil (progC.take 7) (by decide +kernel)
  have st : Stands vI Ex.int 1000 := .inPlace Ex.int rfl (by simp [Ex.int]) (by decide)
  refine ⟨⟨_, _, _, rfl, p7, by decide +kernel⟩, ⟨by decide, ?_⟩, .object _ _ st (by simp [Ex.int]), ?_, ?_, by decide +kernel, by decide +kernel,
    by decide +kernel, by decide +kernel, by decide +kernel⟩
  · intro p hp
    simp [CtorDef.asFn, kInt] at hp
    subst hp
    exact ⟨⟨by simp [Ex.int], fun b q h => by cases h; decide⟩, by decide⟩
  · rintro x ⟨b, c, q, r, y, h, hb, _⟩
    obtain ⟨e, _⟩ := h.unique st
    cases e
    cases hb
  · intro d hd k h
    simp [progC] at hd
    rcases hd with rfl | rfl | rfl | rfl | rfl | rfl | rfl <;> cases h

end Rtti.Props
