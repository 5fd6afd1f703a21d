import Verif.Lemmas.Builder
import Verif.Lemmas.LazyQuiet
import Verif.Lemmas.Ctors
import Verif.Lemmas.BuilderQuiet
import Verif.Lemmas.Signature
import Verif.Props.Signature
/-
C51 (the definition builder), C52 (special constructors), C61 (no pending callback).
-/
set_option autoImplicit false
namespace Rtti.Props
open Rtti Spec World Builder

/-! ### C61: with nothing pending the check for deferred definitions is invisible -/

/-- C61: a defining call does what it does in the world without lazy definitions, and nothing else changes. The
    hypothesis on `fuel` only says that the interpreter is given enough steps. -/
theorem C61_define {s : LW} (q : ∀ p, s.pending p = none) (hi : s.iter = []) {f fuel : Nat}
    (hf : s.w.depth + 1 ≤ fuel) (o : World.Op) (hd : (s.w.step o).2 ≠ .diverge) :
    Lazy.op (Lazy.check (f + 1)) fuel o s = ({ s with w := (s.w.step o).1 }, (s.w.step o).2) :=
  Lazy.op_quiet q hi hf o hd

/-- C61: look-ups answer as in the world without lazy definitions and change nothing. -/
theorem C61_lookup {s : LW} (q : ∀ p, s.pending p = none) {f fuel : Nat} (hf : s.w.depth ≤ fuel) (c : Ptr) (k : Cat) (n : Str) :
    (s.w.getMethod c n ≠ .diverge → Lazy.getMethod (Lazy.check (f + 1)) fuel c n s = (s, s.w.getMethod c n)) ∧
    (s.w.getProperty c n ≠ .diverge → Lazy.getProperty (Lazy.check (f + 1)) fuel c n s = (s, s.w.getProperty c n)) ∧
    Lazy.getConstructor (Lazy.check (f + 1)) c n s = (s, s.w.getConstructor c n) ∧
    Lazy.getItem (Lazy.check (f + 1)) c k n s = (s, s.w.getItem c k n) :=
  ⟨Lazy.getMethod_quiet q hf c n, Lazy.getProperty_quiet q hf c n, Lazy.reads_getConstructor c n s q,
    Lazy.reads_getItem c k n s q⟩

/-- C61: inheritance questions and casts too. -/
theorem C61_hierarchy {s : LW} (q : ∀ p, s.pending p = none) {f fuel : Nat} (hf : s.w.depth ≤ fuel) (c : Ptr) (b : Option Ptr)
    (a : Addr) :
    (s.w.inheritedFrom c b ≠ .diverge → Lazy.inheritedFrom (Lazy.check (f + 1)) fuel c b s = (s, s.w.inheritedFrom c b)) ∧
    (s.w.cast c b a ≠ .diverge → Lazy.cast (Lazy.check (f + 1)) fuel c b a s = (s, s.w.cast c b a)) := by
  constructor
  · intro hd
    rw [Lazy.reads_inheritedFrom fuel c b s q]
    dsimp only
    rw [Lazy.inheritedFromF_mono _ _ hf c hd]
    rfl
  · intro hd
    rw [Lazy.reads_cast fuel c b a s q]
    dsimp only
    rw [Lazy.castF_mono _ _ hf c a hd]
    rfl

/- a class with a base and a method, nothing pending -/
example : let s : LW := { Lazy.init with w := Ex.diamond }
    (∀ p, s.pending p = none) ∧ s.w.getMethod 5 ['f', '(', ')'] ≠ .diverge ∧
      (Lazy.getMethod (Lazy.check 1) 20 5 ['f', '(', ')'] s).2 = s.w.getMethod 5 ['f', '(', ')'] :=
  ⟨fun _ => rfl, by decide +kernel, by decide +kernel⟩

/-! ### C51 -/

/-- C51: chains are well nested exactly when they are the text of a tree of scopes. -/
theorem C51_trees (cs : List BCmd) : WellNested cs ↔ ∃ xs, texts xs = cs :=
  ⟨wellNested_tree, by rintro ⟨xs, rfl⟩; exact ⟨noExtraEnd_texts xs, levels_texts xs⟩⟩

section
variable {chk : Ptr → LM Unit} {fuel : Nat}

/-- C51: a chain does what lexical scoping says: every item is defined in the container of the innermost open
    scope, attributes and elements go to the current item as the tree says; afterwards the container and the
    stack are those before. Exceptions end both alike. Callbacks may be pending (`chk` is arbitrary). -/
theorem C51_scopes (xs : List Node) (o cur : Option Ptr) (s : BS) :
    SameEnd o s.stack (chain chk fuel ⟨cur, o⟩ (texts xs) s) (defines chk fuel o cur xs s.b) :=
  defines_same xs o cur s.stack s.b

/-- C51: a chain begun by `global_define()`, or by the argument of a lazy callback, is at first about the container
    it was begun for: that is where items are defined, and whose attributes are set. -/
theorem C51_start (xs : List Node) (o : Ptr) (s : BS) :
    SameEnd (some o) s.stack (chain chk fuel (start o) (texts xs) s) (defines chk fuel (some o) (some o) xs s.b) :=
  C51_scopes xs (some o) (some o) s

/-- C51: every well-nested chain that ends normally leaves the container and the stack as they were. -/
theorem C51_balanced {cs : List BCmd} (h : WellNested cs) {b b' : Bld} {s s' : BS}
    (hr : chain chk fuel b cs s = (s', .val b')) : b'.cont = b.cont ∧ s'.stack = s.stack := by
  obtain ⟨xs, rfl⟩ := wellNested_tree h
  have := C51_scopes (chk := chk) (fuel := fuel) xs b.cont b.item s
  rw [hr] at this
  generalize defines chk fuel b.cont b.item xs s.b = q at this
  obtain ⟨t, q | e | _ | _⟩ := q <;> simp only [SameEnd] at this
  exact ⟨by rw [this.2], by rw [this.1]⟩

/-- C51: started by `global_define()` or in a lazy callback (empty stack), the stack ends empty. -/
theorem C51_stack_empty {cs : List BCmd} (h : WellNested cs) {b b' : Bld} {s s' : BS} (h0 : s.stack = [])
    (hr : chain chk fuel b cs s = (s', .val b')) : s'.stack = [] := by
  rw [(C51_balanced h hr).2, h0]

/-- C51: scopes may be left open at the end of the chain: what is defined is the same as if they were closed. -/
theorem C51_unclosed {cs : List BCmd} (h : NoExtraEnd cs) {d : Nat} (hd : levels cs = d) (b : Bld) (s : BS) :
    ∃ xs, texts xs = cs ++ List.replicate d .end ∧
      (chain chk fuel b cs s).1.b = (defines chk fuel b.cont b.item xs s.b).1 := by
  obtain ⟨xs, hx⟩ := wellNested_tree (NoExtraEnd.close h hd)
  refine ⟨xs, hx, ?_⟩
  have := C51_scopes (chk := chk) (fuel := fuel) xs b.cont b.item s
  rw [hx, chain_append] at this
  have hb : (⟨b.item, b.cont⟩ : Bld) = b := rfl
  rw [hb] at this
  have he := fun b s => ends_state (chk := chk) (fuel := fuel) d b s
  generalize chain chk fuel b cs s = r at this
  generalize defines chk fuel b.cont b.item xs s.b = q at this
  obtain ⟨s', r | e | _ | _⟩ := r
  · have he := he r s'
    simp only [andThen] at this
    generalize chain chk fuel r (List.replicate d .end) s' = z at this he
    obtain ⟨z, y | _ | _ | _⟩ := z <;> obtain ⟨t, q | e | _ | _⟩ := q <;>
      simp_all [SameEnd]
  all_goals
    obtain ⟨t, q | e | _ | _⟩ := q <;> simp_all [SameEnd, andThen]

/-- C51: as long as no `_end` is missing its scope and nothing fails, the stack holds one container for each open
    scope (so `_end` never pops an empty stack). -/
theorem C51_stack {cs : List BCmd} {b b' : Bld} {s s' : BS} (hr : chain chk fuel b cs s = (s', .val b')) :
    (s'.stack.length : Int) = s.stack.length + levels cs := by
  have := chain_stack (chk := chk) (fuel := fuel) cs b s b' (by rw [hr])
  rwa [hr] at this

end

/-! where things go, in a world with nothing pending -/

/-- C51: `_method` defines the method in the current container (its text once) and changes neither the current
    container nor the current item. -/
theorem C51_method {rank} {s : BS} (q : ∀ p, s.b.l.pending p = none) (hi : s.b.l.iter = []) {f fuel : Nat}
    (hf : s.b.l.w.depth + 1 ≤ fuel) (hr : Reachable rank s.b.l.w) {c : Ptr} (hc : s.b.l.w.isContainer c = true)
    (i : Option Ptr) (n : Str) (fn : Func) :
    ∃ w' p, chain (Lazy.check (f + 1)) fuel ⟨i, some c⟩ [.method n fn] s =
        ({ s with b := { s.b with l := { s.b.l with w := w' } } }, .val ⟨i, some c⟩) ∧
      DefinesOnce s.b.l.w w' (.val (some p)) (fun w => w.getMethod c (funcSignature n fn)) c .method (funcSignature n fn) := by
  have hs : funcSignature n fn ≠ [] := by
    cases fn <;> simp [funcSignature, signatureText]
  have key := C17_method hr hc hs
  have e : s.b.l.w.step (.createMethod c (funcSignature n fn) true) = s.b.l.w.createMethod c (funcSignature n fn) true := by
    simp [step, hc]
  obtain ⟨p, hp⟩ : ∃ p, (s.b.l.w.createMethod c (funcSignature n fn) true).2 = .val (some p) := by
    rcases key with ⟨p, _, h, _⟩ | ⟨_, p, h, _⟩ <;> exact ⟨p, h⟩
  refine ⟨(s.b.l.w.createMethod c (funcSignature n fn) true).1, p, ?_, hp ▸ key⟩
  simp only [chain, call]
  rw [libQuiet q hi hf (by rw [e]; exact hp), e]

/-- C51: `_property` likewise. -/
theorem C51_property {rank} {s : BS} (q : ∀ p, s.b.l.pending p = none) (hi : s.b.l.iter = []) {f fuel : Nat}
    (hf : s.b.l.w.depth + 1 ≤ fuel) (hr : Reachable rank s.b.l.w) {c : Ptr} (hc : s.b.l.w.isContainer c = true)
    (i : Option Ptr) {n : Str} (hn : n ≠ []) :
    ∃ w' p, chain (Lazy.check (f + 1)) fuel ⟨i, some c⟩ [.property n] s =
        ({ s with b := { s.b with l := { s.b.l with w := w' } } }, .val ⟨i, some c⟩) ∧
      DefinesOnce s.b.l.w w' (.val (some p)) (fun w => w.getProperty c n) c .property n := by
  have key := C17_property hr hc hn
  have e : s.b.l.w.step (.createProperty c n true) = s.b.l.w.createProperty c n true := by
    simp [step, hc]
  obtain ⟨p, hp⟩ : ∃ p, (s.b.l.w.createProperty c n true).2 = .val (some p) := by
    rcases key with ⟨p, _, h, _⟩ | ⟨_, p, h, _⟩ <;> exact ⟨p, h⟩
  refine ⟨(s.b.l.w.createProperty c n true).1, p, ?_, hp ▸ key⟩
  simp only [chain, call]
  rw [libQuiet q hi hf (by rw [e]; exact hp), e]

/-- C51: `_constructor` likewise. -/
theorem C51_constructor {rank} {s : BS} (q : ∀ p, s.b.l.pending p = none) (hi : s.b.l.iter = []) {f fuel : Nat}
    (hf : s.b.l.w.depth + 1 ≤ fuel) (hr : Reachable rank s.b.l.w) {c : Ptr} (hc : s.b.l.w.isContainer c = true)
    (i : Option Ptr) (k : Ctor) :
    ∃ w' p, chain (Lazy.check (f + 1)) fuel ⟨i, some c⟩ [.ctor k] s =
        ({ s with b := { s.b with l := { s.b.l with w := w' } } }, .val ⟨i, some c⟩) ∧
      DefinesOnce s.b.l.w w' (.val (some p)) (fun w => w.getConstructor c (ctorSignature k)) c .constructor (ctorSignature k) := by
  have key := C17_constructor hr hc (ctorSignature k)
  have e : s.b.l.w.step (.createConstructor c (ctorSignature k) true) =
      s.b.l.w.createConstructor c (ctorSignature k) true := by
    simp [step, hc]
  obtain ⟨p, hp⟩ : ∃ p, (s.b.l.w.createConstructor c (ctorSignature k) true).2 = .val (some p) := by
    rcases key with ⟨p, _, h, _⟩ | ⟨_, p, h, _⟩ <;> exact ⟨p, h⟩
  refine ⟨(s.b.l.w.createConstructor c (ctorSignature k) true).1, p, ?_, hp ▸ key⟩
  simp only [chain, call]
  rw [libQuiet q hi hf (by rw [e]; exact hp), e]

/-- C51: `_enum` defines the enum in the current container and makes it the current item. -/
theorem C51_enum {rank} {s : BS} (q : ∀ p, s.b.l.pending p = none) (hi : s.b.l.iter = []) {f fuel : Nat}
    (hf : s.b.l.w.depth + 1 ≤ fuel) (hr : Reachable rank s.b.l.w) {c : Ptr} (hc : s.b.l.w.isContainer c = true)
    (i : Option Ptr) {n : Str} (hn : n ≠ []) :
    ∃ w' p, chain (Lazy.check (f + 1)) fuel ⟨i, some c⟩ [.enum n] s =
        ({ s with b := { s.b with l := { s.b.l with w := w' } } }, .val ⟨some p, some c⟩) ∧
      DefinesOnce s.b.l.w w' (.val (some p)) (fun w => w.getItem c .enum n) c .enum n := by
  have key := C17_enum hr hc hn
  obtain ⟨p, hp⟩ : ∃ p, (s.b.l.w.createEnum c n).2 = .val (some p) := by
    rcases key with ⟨p, _, h, _⟩ | ⟨_, p, h, _⟩ <;> exact ⟨p, h⟩
  refine ⟨(s.b.l.w.createEnum c n).1, p, ?_, hp ▸ key⟩
  simp only [chain, call]
  rw [libQuiet q hi hf (o := .createEnum c n) hp]
  rfl

/-- C51: `_namespace` defines the namespace in the current container, makes it the current item and container, and
    `_end` leads back. -/
theorem C51_namespace {rank} {s : BS} (q : ∀ p, s.b.l.pending p = none) (hi : s.b.l.iter = []) {f fuel : Nat}
    (hf : s.b.l.w.depth + 1 ≤ fuel) (hr : Reachable rank s.b.l.w) {c : Ptr} (hc : s.b.l.w.isContainer c = true)
    (i : Option Ptr) {n : Str} (hn : n ≠ []) :
    ∃ w' p, chain (Lazy.check (f + 1)) fuel ⟨i, some c⟩ [.nmspace n] s =
        (⟨{ s.b with l := { s.b.l with w := w' } }, some c :: s.stack⟩, .val ⟨some p, some p⟩) ∧
      DefinesOnce s.b.l.w w' (.val (some p)) (fun w => w.getItem c .nmspace n) c .nmspace n := by
  have key := C17_namespace hr hc hn
  obtain ⟨p, hp⟩ : ∃ p, (s.b.l.w.createNamespace c n).2 = .val (some p) := by
    rcases key with ⟨p, _, h, _⟩ | ⟨_, p, h, _⟩ <;> exact ⟨p, h⟩
  refine ⟨(s.b.l.w.createNamespace c n).1, p, ?_, hp ▸ key⟩
  simp only [chain, call]
  rw [libQuiet (s := { s with stack := some c :: s.stack }) q hi hf (o := .createNamespace c n) hp]
  rfl

/-- C51: `_attribute` sets the attribute of the current item and of nothing else; it changes nothing else. -/
theorem C51_attribute {chk : Ptr → LM Unit} {fuel : Nat} {s s' : BS} {i : Ptr} {c : Option Ptr} {b : Bld} {n : Str} {v : Nat}
    (hn : n ≠ [])
    (hr : chain chk fuel ⟨some i, c⟩ [.attribute n v] s = (s', .val b)) :
    b = ⟨some i, c⟩ ∧ Lazy.attrOf (s'.b.l.attrs i) n = some v ∧ (∀ p, p ≠ i → s'.b.l.attrs p = s.b.l.attrs p) ∧
      s'.b.l.w = s.b.l.w ∧ s'.b.elems = s.b.elems ∧ s'.stack = s.stack := by
  simp only [chain, call, lib] at hr
  cases hs : (s.b.l.attrs i).set n v with
  | none =>
    have e : Lazy.setAttr i n v s.b.l = (s.b.l, .throw .outOfRange) := by simp [Lazy.setAttr, hs]
    rw [e] at hr
    simp at hr
  | some l =>
    have e : Lazy.setAttr i n v s.b.l = ({ s.b.l with attrs := upd s.b.l.attrs i l }, .val ()) := by simp [Lazy.setAttr, hs]
    rw [e] at hr
    simp only [Prod.mk.injEq, Res.val.injEq] at hr
    obtain ⟨rfl, rfl⟩ := hr
    refine ⟨rfl, ?_, fun p hp => by simp [upd, hp], rfl, rfl, rfl⟩
    have hu : upd s.b.l.attrs i l i = l := by simp [upd]
    show Lazy.attrOf (upd s.b.l.attrs i l i) n = some v
    rw [hu]
    simp only [NamedList.set, hn, if_false] at hs
    cases hx : (s.b.l.attrs i).names n with
    | none =>
      simp only [hx, Option.some.injEq] at hs
      subst hs
      simp [Lazy.attrOf, hn]
    | some k =>
      simp only [hx] at hs
      cases hy : (s.b.l.attrs i).items[k]? with
      | none => simp [hy] at hs
      | some y =>
        simp only [hy, Option.some.injEq] at hs
        subst hs
        have hk : k < (s.b.l.attrs i).items.length := by
          rcases Nat.lt_or_ge k (s.b.l.attrs i).items.length with h | h
          · exact h
          · simp [List.getElem?_eq_none h] at hy
        simp [Lazy.attrOf, hn, hx, List.getElem?_set, hk]

/-- C51: `_element` adds the element to the current item if that is an enum, and changes nothing otherwise. -/
theorem C51_element {chk : Ptr → LM Unit} {fuel : Nat} {s s' : BS} {i : Ptr} {c : Option Ptr} {b : Bld} {n : Str} {v : Nat}
    (hr : chain chk fuel ⟨some i, c⟩ [.element n v] s = (s', .val b)) :
    b = ⟨some i, c⟩ ∧ s'.b.l = s.b.l ∧ s'.stack = s.stack ∧ (∀ p, p ≠ i → s'.b.elems p = s.b.elems p) ∧
      (s.b.l.w.kind i = some .enum → (s.b.elems i).set n v = some (s'.b.elems i)) ∧
      (s.b.l.w.kind i ≠ some .enum → s'.b.elems i = s.b.elems i) := by
  simp only [chain, call] at hr
  by_cases hk : s.b.l.w.kind i = some .enum
  · simp only [hk, if_true] at hr
    cases hs : (s.b.elems i).set n v with
    | none => simp [hs] at hr
    | some l =>
      simp only [hs, Prod.mk.injEq, Res.val.injEq] at hr
      obtain ⟨rfl, rfl⟩ := hr
      refine ⟨rfl, rfl, rfl, fun p hp => by simp [upd, hp], fun _ => by simp [upd], fun h => absurd hk h⟩
  · simp only [hk, if_false, Prod.mk.injEq, Res.val.injEq] at hr
    obtain ⟨rfl, rfl⟩ := hr
    exact ⟨rfl, rfl, rfl, fun _ _ => rfl, fun h => absurd h hk, fun _ => rfl⟩

namespace ExB

/-- `_namespace("a")._class<C>("C")._method("f", ..)._attribute("doc", 7)._end()._enum("e")._element("x", 1)
    ._attribute("doc", 8)._end()` -/
def tree : List Node :=
  [.nmspace ['a'] [
    .cls ['C'] 5 ⟨true, true, false, [], []⟩ [.method ['f'] (.static []), .attribute ['d', 'o', 'c'] 7],
    .enum ['e'], .element ['x'] 1, .attribute ['d', 'o', 'c'] 8]]

def final : BS × Res Bld := chain (Lazy.check 3) 30 (start globalNs) (texts tree) Builder.init

end ExB

/- the chain runs: the namespace is in the global one, the class and the enum are in it, two special constructors
   and the method are in the class; the stack is empty and the builder is back at the global namespace -/
example : WellNested (texts ExB.tree) ∧ ExB.final.2 = .val (start globalNs) ∧ ExB.final.1.stack = [] ∧
    ExB.final.1.b.l.w.getItem globalNs .nmspace ['a'] = .val (some 2) ∧
    ExB.final.1.b.l.w.getItem 2 .cls ['C'] = .val (some 3) ∧
    ExB.final.1.b.l.w.getItem 2 .enum ['e'] = .val (some 7) ∧
    ExB.final.1.b.l.w.getMethod 3 ['f'] = .val (some 6) ∧
    ExB.final.1.b.l.w.getMethod 2 ['f'] = .val none ∧
    Lazy.attrOf (ExB.final.1.b.elems 7) ['x'] = some 1 ∧
    Lazy.attrOf (ExB.final.1.b.l.attrs 7) ['d', 'o', 'c'] = some 8 :=
  ⟨(C51_trees _).2 ⟨_, rfl⟩, by decide +kernel, by decide +kernel, by decide +kernel, by decide +kernel, by decide +kernel,
    by decide +kernel, by decide +kernel, by decide +kernel, by decide +kernel⟩

/-- C51 is false as stated for attributes: an attribute written after `_method` (or `_property`, `_constructor`)
    goes to the class, not to the method just created. -/
theorem C51_attribute_false :
    let s := (chain (Lazy.check 3) 30 (start globalNs)
      [.cls ['C'] 5 ⟨false, false, false, [], []⟩, .method ['f'] (.static []), .attribute ['d', 'o', 'c'] 7] Builder.init).1
    s.b.l.w.getItem globalNs .cls ['C'] = .val (some 2) ∧ s.b.l.w.getMethod 2 ['f'] = .val (some 3) ∧
    Lazy.attrOf (s.b.l.attrs 3) ['d', 'o', 'c'] = none ∧ Lazy.attrOf (s.b.l.attrs 2) ['d', 'o', 'c'] = some 7 :=
  ⟨by decide +kernel, by decide +kernel, by decide +kernel, by decide +kernel⟩

/-- C51 is about fluent chains only: a builder object that is used again is still in the scope its first chain
    opened, though that chain closed it:
    `auto g = global_define(); g._namespace("a")._end(); g._namespace("b")._end();` puts `b` into `a`. -/
theorem C51_reuse_false :
    let r := statements (Lazy.check 3) 30 (start globalNs) [[.nmspace ['a'], .end], [.nmspace ['b'], .end]] Builder.init
    r.2 = .val ⟨some 3, some 3⟩ ∧ r.1.b.l.w.getItem globalNs .nmspace ['a'] = .val (some 2) ∧
    r.1.b.l.w.getItem globalNs .nmspace ['b'] = .val none ∧ r.1.b.l.w.getItem 2 .nmspace ['b'] = .val (some 3) :=
  ⟨by decide +kernel, by decide +kernel, by decide +kernel, by decide +kernel⟩

/-- C51: an exception in a chain leaves the scopes it was in on the stack: a second chain on the same builder object
    ends in the wrong place even when it is well nested. -/
theorem C51_exception_stack_false :
    let s1 := chain (Lazy.check 3) 30 (start globalNs) [.nmspace ['a'], .cls ['C'] 0 ⟨true, true, true, [], []⟩] Builder.init
    s1.2 = .throw .invalidTypeId ∧ s1.1.stack = [some 2, some globalNs] :=
  ⟨by decide +kernel, by decide +kernel⟩

/-! ### C52 -/

/-- C52: a newly defined class has a constructor under a name exactly if the name is that of a special constructor
    the class has; nothing else is registered. -/
theorem C52_class {rank} {w : World} (h : Reachable rank w) {o : Ptr} (ho : w.isContainer o = true) {n : Str} (hn : n ≠ [])
    {t : TypeId} (ht : t ≠ 0) (hnew : w.getItem o .cls n = .val none) (hty : w.find t = none) (k : Caps) :
    ∃ w' p, w.defineClass o n t k = (w', .val (some p)) ∧ Reachable rank w' ∧ w'.kind p = some .cls ∧ w.kind p = none ∧
      ∀ q, ∃ r, w'.getConstructor p q = .val r ∧ (r.isSome = true ↔
        (q = defaultSig ∧ k.dflt = true) ∨ (q = copySig ∧ k.copy = true) ∨ (q = moveSig ∧ k.move = true)) := by
  let w1 := (w.step (.registerType t)).1
  have hw1 : w1 = { w with valid := upd w.valid t true } := by simp [w1, step, ht]
  have r1 : Reachable rank w1 := Reachable.step (.registerType t) h trivial (by simp [step, ht]) (by simp [step, ht])
  have ho1 : w1.isContainer o = true := by rw [hw1]; exact ho
  have hnew1 : w1.getItem o .cls n = .val none := by rw [hw1]; exact hnew
  have hmc : w.metaClass t = none := by
    have i := Inv.reachable h
    cases hm : w.metaClass t with
    | none => rfl
    | some p =>
      have hv := (i.mc _ _ hm).1
      simp [find, hm, hv] at hty
  have key := C17_class r1 ho1 hn t
  have hkey : DefinesOnce w1 (w1.createClass o n t).1 (w1.createClass o n t).2 (fun w => w.getItem o .cls n) o .cls n := by
    rcases key with h | ⟨_, ⟨h, _⟩ | ⟨_, h, _⟩⟩
    · exact h
    · simp [hw1, upd] at h
    · simp [hw1, find, upd, hmc] at h
  rcases hkey with ⟨p, e, _⟩ | ⟨_, p, e2, hc, _⟩
  · rw [show (fun w : World => w.getItem o .cls n) w1 = .val none from hnew1] at e
    exact nomatch e
  · let w2 := (w1.createClass o n t).1
    have e2' : w1.createClass o n t = (w2, .val (some p)) := Prod.ext rfl e2
    have r2 : Reachable rank w2 :=
      Reachable.step (.createClass o n t) r1 trivial (by simp [step, e2]) (by simp [step, e2])
    have hp2 : w2.isContainer p = true := by simp [isContainer, w2, hc.kind]
    obtain ⟨w3, e3, r3, hp3, hk3, _, hn3⟩ := define_many r2 hp2 k.ctors
    refine ⟨w3, p, ?_, r3, by rw [hk3]; exact hc.kind, ?_, fun q => ?_⟩
    · simp only [defineClass]
      rw [show (w.step (.registerType t)).1 = w1 from rfl, e2']
      simp only [e3]
    · have := hc.fresh
      rw [hw1] at this
      exact this
    · obtain ⟨r, hr⟩ := getConstructor_val (n := q) hp3
      refine ⟨r, hr, ?_⟩
      have hempty : w2.getConstructor p q = .val none := by
        rw [getConstructor_none_iff hp2]
        intro x hx
        rw [show (w2.cont p .constructor).items = [] from hc.noMembers .constructor] at hx
        exact absurd hx (by simp)
      have := hn3 q
      rw [hr, hempty] at this
      rw [← caps_sigs]
      cases r with
      | none =>
        simp only [true_and, true_iff] at this
        simp only [Option.isSome_none, Bool.false_eq_true, false_iff, not_exists, not_and]
        exact this
      | some x =>
        simp only [true_and, Res.val.injEq, reduceCtorEq, false_iff] at this
        simp only [Option.isSome_some, true_iff]
        refine Classical.byContradiction fun hne => this fun c hc hd => hne ⟨c, hc, hd⟩

/-- C52: after `_class<C>` the three look-ups by kind are non-null exactly when `C` has the constructor. -/
theorem C52_kinds {rank} {w : World} (h : Reachable rank w) {o : Ptr} (ho : w.isContainer o = true) {n : Str} (hn : n ≠ [])
    {t : TypeId} (ht : t ≠ 0) (hnew : w.getItem o .cls n = .val none) (hty : w.find t = none) (k : Caps) :
    ∃ w' p, w.defineClass o n t k = (w', .val (some p)) ∧
      (∃ r, w'.defaultConstructor p = .val r ∧ r.isSome = k.dflt) ∧
      (∃ r, w'.copyConstructor p = .val r ∧ r.isSome = k.copy) ∧
      (∃ r, w'.moveConstructor p = .val r ∧ r.isSome = k.move) := by
  obtain ⟨w', p, e, _, _, _, hq⟩ := C52_class h ho hn ht hnew hty k
  have h1 : defaultSig ≠ copySig := by decide
  have h2 : defaultSig ≠ moveSig := by decide
  have h3 : copySig ≠ moveSig := by decide
  refine ⟨w', p, e, ?_, ?_, ?_⟩
  · obtain ⟨r, hr, hs⟩ := hq defaultSig
    refine ⟨r, hr, ?_⟩
    rw [Bool.eq_iff_iff, hs]
    simp [h1, h2]
  · obtain ⟨r, hr, hs⟩ := hq copySig
    refine ⟨r, hr, ?_⟩
    rw [Bool.eq_iff_iff, hs]
    simp [h1.symm, h3]
  · obtain ⟨r, hr, hs⟩ := hq moveSig
    refine ⟨r, hr, ?_⟩
    rw [Bool.eq_iff_iff, hs]
    simp [h2.symm, h3.symm]

/-- C52: further constructors never change which constructor a look-up returns, once there is one. -/
theorem C52_stable {rank} {w : World} (h : Reachable rank w) {c : Ptr} (hc : w.isContainer c = true) (cs : List Ctor) {q : Str}
    {p : Ptr} (hq : w.getConstructor c q = .val (some p)) :
    ∃ w', w.defineConstructors c cs = (w', .val ()) ∧ w'.getConstructor c q = .val (some p) := by
  obtain ⟨w', e, _, _, _, hs, _⟩ := define_many h hc cs
  exact ⟨w', e, hs q p hq⟩

/-- C52 (partial): a look-up by kind that is null stays null as long as no further constructor is of that kind or
    is given that reserved name. What is missing: the reserved names are not refused, see `C52_reserved_false`. -/
theorem C52_null_partial {rank} {w : World} (h : Reachable rank w) {c : Ptr} (hc : w.isContainer c = true) (cs : List Ctor)
    (hname : ∀ x ∈ cs, '(' ∉ x.name ∧ x.name ≠ defaultSig ∧ x.name ≠ copySig ∧ x.name ≠ moveSig) :
    ∃ w', w.defineConstructors c cs = (w', .val ()) ∧
      (w.defaultConstructor c = .val none → (∀ x ∈ cs, x.args ≠ []) → w'.defaultConstructor c = .val none) ∧
      (w.copyConstructor c = .val none → (∀ x ∈ cs, ∀ a, x.args = [a] → a.self = true → a.rvalue = true) →
        w'.copyConstructor c = .val none) ∧
      (w.moveConstructor c = .val none → (∀ x ∈ cs, ∀ a, x.args = [a] → a.self = true → a.rvalue = false) →
        w'.moveConstructor c = .val none) := by
  obtain ⟨w', e, _, _, _, _, hn⟩ := define_many h hc cs
  have hsp : '(' ∉ defaultSig ∧ '(' ∉ copySig ∧ '(' ∉ moveSig := by decide
  have hpl : ∀ (q : Str) (x : Ctor), '(' ∉ q → '(' ∉ x.name → x.name ≠ q → q ≠ ctorSig →
      ¬ Denotes q (signatureText (ctorName x.name) (x.args.map (·.text))) := by
    intro q x hq hx hne hc hd
    have hnm : '(' ∉ ctorName x.name := by
      unfold ctorName
      split
      · decide
      · exact hx
    obtain ⟨r, hr⟩ := signatureText_paren (ctorName x.name) (x.args.map (·.text))
    rw [hr] at hd
    rcases hd with hd | ⟨r', hd, _⟩
    · exact hq (hd ▸ by simp)
    · have := (name_split hnm hq hd).1
      unfold ctorName at this
      split at this
      · exact hc this.symm
      · exact hne this
  have hspec : ∀ {q s : Str}, '(' ∉ s → q ≠ s → ¬ Denotes q s := by
    rintro q s hs hne (h | ⟨r, h, _⟩)
    · exact hne h.symm
    · exact hs (h ▸ by simp)
  have hsig : ∀ x : Ctor, (x.args = [] ∧ ctorSignature x = defaultSig) ∨
      (∃ a, x.args = [a] ∧ a.self = true ∧ a.rvalue = false ∧ ctorSignature x = copySig) ∨
      (∃ a, x.args = [a] ∧ a.self = true ∧ a.rvalue = true ∧ ctorSignature x = moveSig) ∨
      ctorSignature x = signatureText (ctorName x.name) (x.args.map (·.text)) := by
    intro x
    unfold ctorSignature
    match hx : x.args with
    | [] => exact .inl ⟨rfl, rfl⟩
    | [a] =>
      cases h1 : a.self with
      | false => exact .inr (.inr (.inr (by simp [h1])))
      | true => cases h2 : a.rvalue <;> simp [h1, h2]
    | a :: b :: as => exact .inr (.inr (.inr rfl))
  refine ⟨w', e, fun h0 ha => ?_, fun h0 ha => ?_, fun h0 ha => ?_⟩
  · refine (hn _).2 ⟨h0, fun x hx => ?_⟩
    obtain ⟨g1, g2, g3, g4⟩ := hname x hx
    rcases hsig x with ⟨h, _⟩ | ⟨a, _, _, _, h⟩ | ⟨a, _, _, _, h⟩ | h
    · exact absurd h (ha x hx)
    · rw [h]; exact hspec hsp.2.1 (by decide)
    · rw [h]; exact hspec hsp.2.2 (by decide)
    · rw [h]; exact hpl _ x hsp.1 g1 g2 (by decide)
  · refine (hn _).2 ⟨h0, fun x hx => ?_⟩
    obtain ⟨g1, g2, g3, g4⟩ := hname x hx
    rcases hsig x with ⟨_, h⟩ | ⟨a, h1, h2, h3, h⟩ | ⟨a, _, _, _, h⟩ | h
    · rw [h]; exact hspec hsp.1 (by decide)
    · rw [ha x hx a h1 h2] at h3; exact absurd h3 (by decide)
    · rw [h]; exact hspec hsp.2.2 (by decide)
    · rw [h]; exact hpl _ x hsp.2.1 g1 g3 (by decide)
  · refine (hn _).2 ⟨h0, fun x hx => ?_⟩
    obtain ⟨g1, g2, g3, g4⟩ := hname x hx
    rcases hsig x with ⟨_, h⟩ | ⟨a, _, _, _, h⟩ | ⟨a, h1, h2, h3, h⟩ | h
    · rw [h]; exact hspec hsp.1 (by decide)
    · rw [h]; exact hspec hsp.2.1 (by decide)
    · rw [ha x hx a h1 h2] at h3; exact absurd h3 (by decide)
    · rw [h]; exact hpl _ x hsp.2.2 g1 g4 (by decide)

/-- C52: a constructor that is not default, copy or move is found by its name and parameter types, and by nothing
    defined later instead. -/
theorem C52_found {rank} {w : World} (h : Reachable rank w) {c : Ptr} (hc : w.isContainer c = true) (k : Ctor)
    (h0 : k.args ≠ []) (h1 : ∀ a, k.args = [a] → a.self = false) (later : List Ctor) :
    ∃ w1 p w2, w.defineConstructor c k = (w1, .val (some p)) ∧ w1.getConstructorOf c (ctorName k.name) k.args = .val (some p) ∧
      w1.defineConstructors c later = (w2, .val ()) ∧ w2.getConstructorOf c (ctorName k.name) k.args = .val (some p) ∧
      (w.getConstructorOf c (ctorName k.name) k.args = .val none → w.kind p = none) := by
  obtain ⟨w1, p, e, r1, hc1, _, hf, _, _, hnew⟩ := define_one h hc k
  rw [ctorSignature_plain h0 h1] at hf hnew
  obtain ⟨w2, e2, _, _, _, hs, _⟩ := define_many r1 hc1 later
  exact ⟨w1, p, w2, e, hf, e2, hs _ _ hf, fun hn => (hnew hn).1⟩

/-- C52: constructors that differ in name or parameter types are different objects. -/
theorem C52_distinct {rank} {w : World} (h : Reachable rank w) {c : Ptr} (hc : w.isContainer c = true) {k k' : Ctor}
    (hn : '(' ∉ ctorName k.name) (hn' : '(' ∉ ctorName k'.name)
    (ht : ∀ a ∈ k.args, TypeName a.text) (ht' : ∀ a ∈ k'.args, TypeName a.text)
    (hne : ctorName k.name ≠ ctorName k'.name ∨ k.args.map (·.text) ≠ k'.args.map (·.text)) {p p' : Ptr}
    (hp : w.getConstructorOf c (ctorName k.name) k.args = .val (some p))
    (hp' : w.getConstructorOf c (ctorName k'.name) k'.args = .val (some p')) : p ≠ p' := by
  rintro rfl
  have hfull : ∀ {k : Ctor} {p : Ptr}, w.getConstructorOf c (ctorName k.name) k.args = .val (some p) →
      ∃ x ∈ (w.cont c .constructor).items, x.ptr = p ∧ x.name = signatureText (ctorName k.name) (k.args.map (·.text)) := by
    intro k p hp
    obtain ⟨x, hx, rfl⟩ := (getConstructor_some_iff hc _ _).1 hp
    obtain ⟨pre, post, e1, e2, _⟩ := (findMethod_some_iff _ _ _).1 hx
    refine ⟨x, by rw [e1]; simp, rfl, ?_⟩
    rcases e2 with e2 | ⟨_, _, e3⟩
    · exact e2
    · obtain ⟨r, hr⟩ := signatureText_paren (ctorName k.name) (k.args.map (·.text))
      rw [hr] at e3
      simp at e3
  obtain ⟨x, hx, hxp, hxn⟩ := hfull hp
  obtain ⟨y, hy, hyp, hyn⟩ := hfull hp'
  have i := Inv.reachable h
  have hxw := (i.items c .constructor x hx).2.2.1
  have hyw := (i.items c .constructor y hy).2.2.1
  rw [hxp, hxn] at hxw
  rw [hyp, hyn] at hyw
  have hm : ∀ {as : List CtorArg}, (∀ a ∈ as, TypeName a.text) → ∀ t ∈ as.map (·.text), Spec.TypeName t := by
    intro as ha t htm
    obtain ⟨a, hm, rfl⟩ := List.mem_map.1 htm
    exact ha a hm
  obtain ⟨e1, e2⟩ := C23_injective hn hn' (hm ht) (hm ht') (hxw.symm.trans hyw)
  rcases hne with h | h
  · exact h e1
  · exact h e2

namespace ExB
/-- `int`, `C const&`, `C&&`, `C&` as parameters -/
def int_ : CtorArg := ⟨"int".toList, false, false⟩
def cref : CtorArg := ⟨"const C&".toList, true, false⟩
def rref : CtorArg := ⟨"C&&".toList, true, true⟩
def lref : CtorArg := ⟨"C&".toList, true, false⟩
/-- a class that can be default constructed and copied but not moved (the traits of `C`), one that can do nothing -/
def both : Caps := ⟨true, true, false, cref.text, rref.text⟩
def nothing : Caps := ⟨false, false, false, cref.text, rref.text⟩
def world (k : Caps) : World := (World.init.defineClass 1 ['C'] 5 k).1
end ExB

/- the hypotheses of `C52_class` hold in the initial world; the class is object 2 -/
example : World.init.isContainer 1 = true ∧ World.init.getItem 1 .cls ['C'] = .val none ∧ World.init.find 5 = none ∧
    (ExB.world ExB.both).defaultConstructor 2 = .val (some 3) ∧ (ExB.world ExB.both).copyConstructor 2 = .val (some 4) ∧
    (ExB.world ExB.both).moveConstructor 2 = .val none := by decide +kernel
/- two constructors with parameters, found by their types -/
example : let w := ((ExB.world ExB.both).defineConstructors 2 [⟨[], [ExB.int_]⟩, ⟨[], [ExB.int_, ExB.int_]⟩]).1
    w.getConstructorOf 2 ctorSig [ExB.int_] = .val (some 5) ∧ w.getConstructorOf 2 ctorSig [ExB.int_, ExB.int_] = .val (some 6) ∧
    w.defaultConstructor 2 = .val (some 3) := by decide +kernel

/-- C52 is false as stated: a constructor given a reserved name becomes the default constructor of a class that has
    none: `_class<C>("C")._constructor<int>("d_constructor")`. -/
theorem C52_reserved_false :
    let w := ExB.world ExB.nothing
    w.kind 2 = some .cls ∧ w.defaultConstructor 2 = .val none ∧
    (w.defineConstructor 2 ⟨defaultSig, [ExB.int_]⟩).1.defaultConstructor 2 = .val (some 3) := by decide +kernel

/-- C52 is false as stated: a class that is not copy constructible (from `C const&`) but has a constructor from `C&`
    gets it as copy constructor when that is registered. -/
theorem C52_nonconst_copy_false :
    let w := ExB.world ExB.nothing
    w.copyConstructor 2 = .val none ∧
    (w.defineConstructor 2 ⟨[], [ExB.lref]⟩).1.copyConstructor 2 = .val (some 3) := by decide +kernel

/-- C52 is false as stated: the special constructors are not found by their parameter types:
    `getConstructor<>()` and `getConstructor<C const&>()` are null though `_class` defined both. -/
theorem C52_special_types_false :
    let w := ExB.world ExB.both
    w.defaultConstructor 2 = .val (some 3) ∧ w.copyConstructor 2 = .val (some 4) ∧
    w.getConstructorOf 2 ctorSig [] = .val none ∧ w.getConstructorOf 2 ctorSig [ExB.cref] = .val none := by decide +kernel

/-- C52 needs a new class name: `_class<D>("C")` where "C" already is the class of another type adds the
    constructors of `D` to that class. -/
theorem C52_other_class_false :
    let w := ExB.world ExB.nothing
    w.find 5 = some 2 ∧ w.defaultConstructor 2 = .val none ∧
    (w.defineClass 1 ['C'] 6 ExB.both).2 = .val (some 2) ∧
    (w.defineClass 1 ['C'] 6 ExB.both).1.find 6 = none ∧
    (w.defineClass 1 ['C'] 6 ExB.both).1.defaultConstructor 2 = .val (some 3) := by decide +kernel

/-- C52: the builder's `_class` with nothing pending is `defineClass` in the current container. -/
theorem C52_builder {rank} {s : BS} (q : ∀ p, s.b.l.pending p = none) {f fuel : Nat} (hr : Reachable rank s.b.l.w) {o : Ptr}
    (ho : s.b.l.w.isContainer o = true) {n : Str} (hn : n ≠ []) {t : TypeId} (ht : t ≠ 0) (k : Caps)
    (hnew : s.b.l.w.getItem o .cls n = .val none) (hty : s.b.l.w.find t = none) (i : Option Ptr) :
    ∃ p, (s.b.l.w.defineClass o n t k).2 = .val (some p) ∧
      chain (Lazy.check (f + 1)) fuel ⟨i, some o⟩ [.cls n t k] s =
        (⟨{ s.b with l := { s.b.l with w := (s.b.l.w.defineClass o n t k).1 } }, some o :: s.stack⟩,
          .val ⟨some p, some p⟩) := by
  obtain ⟨w', p, e, _⟩ := C52_class hr ho hn ht hnew hty k
  refine ⟨p, by rw [e], ?_⟩
  rw [e]
  have e1 : s.b.l.w.step (.registerType t) = ({ s.b.l.w with valid := upd s.b.l.w.valid t true }, .val none) := by
    simp [step, ht]
  have r1 := Reachable.step (.registerType t) hr trivial (by simp [e1]) (by simp [e1])
  rw [e1] at r1
  have ho1 : World.isContainer { s.b.l.w with valid := upd s.b.l.w.valid t true } o = true := ho
  simp only [defineClass, e1] at e
  simp only [chain, call]
  generalize ({ s.b.l.w with valid := upd s.b.l.w.valid t true } : World) = w1 at e r1 e1 ho1
  have l1 : ∀ x : LW, x.w = s.b.l.w → Lazy.op (Lazy.check (f + 1)) fuel (.registerType t) x = ({ x with w := w1 }, .val none) := by
    intro x hx
    show ({ x with w := (x.w.step (.registerType t)).1 }, (x.w.step (.registerType t)).2) = _
    rw [hx, e1]
  have l2 := Lazy.createClass_quiet (f := f) (s := { s.b.l with w := w1 }) q (o := o) (n := n) (t := t)
  have key := C17_class r1 ho1 hn t
  cases hc : w1.createClass o n t with
  | mk w2 r2 =>
    rw [hc] at e l2 key
    cases r2 with
    | throw x => simp at e
    | ub => simp at e
    | diverge => simp at e
    | val r2 =>
      cases r2 with
      | none => simp at e
      | some p2 =>
        have r3 : Reachable rank w2 := by
          have := Reachable.step (.createClass o n t) r1 trivial (by simp [step, hc]) (by simp [step, hc])
          simpa [step, hc] using this
        have hp2 : w2.isContainer p2 = true := by
          rcases key with key | ⟨_, ⟨_, h⟩ | ⟨_, _, h⟩⟩
          · rcases key with ⟨p', h1, h2, h3⟩ | ⟨_, p', h2, h3, _⟩
            · simp only [Res.val.injEq, Option.some.injEq] at h2
              subst h2
              have i := Inv.reachable r1
              obtain ⟨h4, h5⟩ := (i.getItem_some ho1).1 h1
              have : w1.kind p2 = some .cls := (i.items o .cls _ h5).2.1
              rw [show w2 = w1 from h3]
              simp [isContainer, this]
            · simp only [Res.val.injEq, Option.some.injEq] at h2
              subst h2
              have : w2.kind p2 = some .cls := h3.kind
              simp [isContainer, this]
          · simp at h
          · simp at h
        have l3 := makeCtors_lib (f := f) (fuel := fuel) k.ctors (s := { s.b.l with w := w2 }) q r3 hp2
        simp only at e l3
        cases hm : w2.defineConstructors p2 k.ctors with
        | mk w3 r3 =>
          rw [hm] at e l3
          cases r3 with
          | throw x => simp at e
          | ub => simp at e
          | diverge => simp at e
          | val r3 =>
            simp only [Prod.mk.injEq, Res.val.injEq, Option.some.injEq] at e
            obtain ⟨rfl, rfl⟩ := e
            simp only [lib, l1 s.b.l rfl]
            have l2' : Lazy.op (Lazy.check (f + 1)) fuel (.createClass o n t) { s.b.l with w := w1 } =
              ({ s.b.l with w := w2 }, .val (some p2)) := l2
            simp only [l2', l3]

/- the hypotheses hold for `global_define()` -/
example : (∀ p, Builder.init.b.l.pending p = none) ∧ Builder.init.b.l.w.isContainer 1 = true ∧
    (chain (Lazy.check 1) 0 (start globalNs) [.cls ['C'] 5 ExB.both] Builder.init).2 = .val ⟨some 2, some 2⟩ :=
  ⟨fun _ => rfl, by decide, by decide +kernel⟩

end Rtti.Props
