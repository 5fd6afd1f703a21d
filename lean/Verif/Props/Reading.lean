import Verif.Lemmas.Reading
import Verif.Props.Value
import Verif.Props.VariantExact
/-
C78: what was put into a variant comes out of it.
-/
set_option autoImplicit false
namespace Rtti.Props
open Rtti Spec VMem Val Reading

/-- C78: whatever a program did, with exceptions and assignments through references, every variant it has is sound for its
    readers; one with a value stands for an object with this value that it owns, one made from a reference for the object
    referred to. Everything proved about readers (C42-C50, C60, C73) applies. -/
theorem C78_stands {P : Prog} {L : Layout} (hL : L.Of P) {s : State} (r : Reach P L s) {E : Env} (sh : Shows P L s E)
    {x : Nat} {u : Var} (e : s.env (some x) = some u) :
    (view s x = some .empty → (seen L s.mem x u).held = none) ∧
    (∀ t v, view s x = some (.val t v) → Sound E (seen L s.mem x u) ∧
      ∃ a id, Owns L s x a id ∧ s.mem.objs id = some ⟨t, v⟩ ∧ Stands (seen L s.mem x u) (kept (L.ty t)) a) ∧
    (∀ t a, view s x = some (.ref t a) → a ≠ 0 → Sound E (seen L s.mem x u) ∧ Stands (seen L s.mem x u) (L.ty t) a) := by
  have g := r.good.1
  refine ⟨fun h => ?_, fun t v h => ?_, fun t a h h0 => ?_⟩
  · obtain ⟨m, c⟩ := u
    cases m with
    | void => rfl
    | ref t' => obtain ⟨a, rfl⟩ := g.refs _ _ _ e; simp [view, e, content] at h
    | own t' =>
      obtain ⟨_, _, _, hc, _⟩ := g.located e
      simp [view, e, hc] at h
  · obtain ⟨_, a, id, ho, hi, st⟩ := owns_of_val hL g e h
    refine ⟨⟨hL.var x, sh.word x u e, fun t' a' h' => ?_, fun b q a' h' => ?_⟩, a, id, ho, hi, st⟩
    · rw [← (st.unique h').2]
      cases ho with
      | inside => exact hL.var x
      | onHeap => exact hL.heap _
    · have := (st.unique h').1
      cases ht : L.ty t with
      | base b' q' => rw [ht] at this; cases this; exact hL.nofunc t _ _ ht
      | ptr => rw [ht] at this; cases this
      | arr => rw [ht] at this; cases this
  · obtain ⟨m, c⟩ := u
    have hm : m = .ref t ∧ c = .ext a := by
      cases m with
      | void => simp [view, e, content] at h
      | ref t' =>
        obtain ⟨a', rfl⟩ := g.refs _ _ _ e
        simp [view, e, content] at h
        exact ⟨by rw [h.1], by rw [h.2]⟩
      | own t' =>
        obtain ⟨_, _, _, hc, _⟩ := g.located e
        simp [view, e, hc] at h
    obtain ⟨rfl, rfl⟩ := hm
    have st : Stands (seen L s.mem x ⟨.ref t, .ext a⟩) (L.ty t) a := .ref (L.ty t) rfl
    refine ⟨⟨hL.var x, sh.word x _ e, fun t' a' h' => ?_, fun b q a' h' => ?_⟩, st⟩
    · rw [← (st.unique h').2]; exact h0
    · exact hL.nofunc t _ _ (st.unique h').1

/-- asked for its own type, arrays included -/
theorem ownType {E : Env} {v : Vnt} (sd : Sound E v) {u : CType} {a : Addr} (st : Stands v u a) :
    reference E v .ref u = .ok a ∧ data E v false u = .ok a ∧ is E v false ⟨.lref, u⟩ = .ok true := by
  by_cases hA : ∀ n e, u ≠ .arr n e
  · exact C42_own_type sd st hA
  obtain ⟨h, e, rfl⟩ := st.held
  have hA : h.u.isArray = true := by
    cases hb : h.u.isArray
    · exact absurd ((not_arr_iff _).2 hb) hA
    · rfl
  obtain ⟨hacc, rfl⟩ := st.access.2 hA
  have h1 : reference E v .ref h.u = .ok v.ptr := by
    simp [reference, vtype e, Held.type, Access.attr, Access.target, metafuncCast, e, compat, C09_reflexive, Ret.bind, hacc, sd.self, hA, sd.word]
  refine ⟨h1, by simp [data, h1], ?_⟩
  simp [is, vtype e, Held.type, metafuncIs, e, compat, C09_reflexive, Ret.bind]

/-- C78: what a program stored comes out: in any program, if the machine without memory says that `x` contains a value, then
    `ref<T>()` and `data<T>()` lead to an object of `x`'s own with this value, and `is<T &>()` says yes; objects in the
    variant, on the heap and arrays. -/
theorem C78_value {P : Prog} {L : Layout} (hL : L.Of P) (cs : List Cmd) {σ : Abs} (hm : meaning P cs ⟨fun _ => none, 0⟩ = (.ok (), σ))
    {x t v : Nat} (hx : σ.σ x = some (.val t v)) :
    ∃ s u, run P cs VMem.init = (.ok (), s) ∧ s.env (some x) = some u ∧ ∀ E, Shows P L s E →
      ∃ a id, Owns L s x a id ∧ s.mem.objs id = some ⟨t, v⟩ ∧
        reference E (seen L s.mem x u) .ref (kept (L.ty t)) = .ok a ∧
        data E (seen L s.mem x u) false (kept (L.ty t)) = .ok a ∧
        is E (seen L s.mem x u) false ⟨.lref, (kept (L.ty t))⟩ = .ok true := by
  obtain ⟨h1, h2⟩ := C38_exact P cs
  rw [hm] at h1 h2
  have hr := reach_run (L := L) cs (.init (P := P)) h1
  have hv := h2 h1
  generalize hs : run P cs VMem.init = rs at *
  obtain ⟨o, s⟩ := rs
  cases h1
  have hx' : view s x = some (.val t v) := by rw [hv]; exact hx
  cases he : s.env (some x) with
  | none => simp [view, he] at hx'
  | some u =>
    refine ⟨s, u, rfl, he, fun E sh => ?_⟩
    obtain ⟨sd, a, id, h3, h4, st⟩ := (C78_stands hL hr sh he).2.1 t v hx'
    exact ⟨a, id, h3, h4, ownType sd st⟩

/-- C78: a variant made from a reference hands out this very object, after any program. -/
theorem C78_referred {P : Prog} {L : Layout} (hL : L.Of P) (cs : List Cmd) {σ : Abs} (hm : meaning P cs ⟨fun _ => none, 0⟩ = (.ok (), σ))
    {x t : Nat} {a : Addr} (hx : σ.σ x = some (.ref t a)) (h0 : a ≠ 0) :
    ∃ s u, run P cs VMem.init = (.ok (), s) ∧ s.env (some x) = some u ∧ ∀ E, Shows P L s E →
      reference E (seen L s.mem x u) .ref (L.ty t) = .ok a ∧ is E (seen L s.mem x u) false ⟨.lref, L.ty t⟩ = .ok true := by
  obtain ⟨h1, h2⟩ := C38_exact P cs
  rw [hm] at h1 h2
  have hr := reach_run (L := L) cs (.init (P := P)) h1
  have hv := h2 h1
  generalize hs : run P cs VMem.init = rs at *
  obtain ⟨o, s⟩ := rs
  cases h1
  have hx' : view s x = some (.ref t a) := by rw [hv]; exact hx
  cases he : s.env (some x) with
  | none => simp [view, he] at hx'
  | some u =>
    refine ⟨s, u, rfl, he, fun E sh => ?_⟩
    obtain ⟨sd, st⟩ := (C78_stands hL hr sh he).2.2 t a hx' h0
    exact ⟨(ownType sd st).1, (ownType sd st).2.2⟩

/-- C78: `to<T>()` copies the object: it succeeds exactly when `T` can be copied and its copy constructor does not throw for the
    value. -/
theorem C78_to {P : Prog} {L : Layout} (hL : L.Of P) {s : State} (r : Reach P L s) {E : Env} (sh : Shows P L s E)
    {x t v : Nat} {u : Var} (e : s.env (some x) = some u) (hx : view s x = some (.val t v)) (ha : ∀ n el, L.ty t ≠ .arr n el) :
    ∃ a id, Owns L s x a id ∧ s.mem.objs id = some ⟨t, v⟩ ∧
      to E (seen L s.mem x u) false (kept (L.ty t)) =
        if (P.ty t).copyable then (if ((P.ty t).copy v).isSome then .ok (.copyOf a) else .throw .user) else .throw .runtimeError := by
  obtain ⟨sd, a, id, ho, hi, st⟩ := (C78_stands hL r sh e).2.1 t v hx
  refine ⟨a, id, ho, hi, ?_⟩
  have hc := sh.copies a t v ⟨x, id, ho, hi⟩
  have hA : (kept (L.ty t)).isArray = false := by
    cases ht : L.ty t with
    | arr n el => exact absurd ht (ha n el)
    | base => rfl
    | ptr => rfl
  have hacc := st.access.1 hA
  obtain ⟨h, eh, hu⟩ := st.held
  have hd : (kept (L.ty t)).fullDecay = (L.ty t).fullDecay := by
    cases ht : L.ty t with
    | arr n el => exact absurd ht (ha n el)
    | base b q => cases b with | mk i k n tr => cases k <;> rfl
    | ptr => rfl
  have hcp : compat ⟨.lref, h.u⟩ ⟨.none, h.u⟩ = .ok true := by
    have h3 : (h.u.isArray && h.u.isPointer) = false := by cases h.u <;> simp [CType.isArray, CType.isPointer]
    have ea : (describe ⟨.lref, h.u⟩).arity = (describe ⟨.none, h.u⟩).arity := rfl
    have em : (describe ⟨.lref, h.u⟩).constMask = (describe ⟨.none, h.u⟩).constMask := rfl
    have er : (describe ⟨.none, h.u⟩).isReference = false := by
      unfold Desc.isReference; rw [describe_isLref, describe_isRref]; rfl
    unfold compat compatible
    rw [describe_isLref, describe_isLref, describe_isRref, describe_isArray, describe_isArray, describe_isPointer, h3]
    rw [hu] at hA
    simp [hA, ea, compatibleMasks, er, em]
  rw [hL.copyable t]
  have hcc : copyable (kept (L.ty t)) = copyable (L.ty t) := by unfold copyable; rw [hd]
  unfold to metafuncTo
  rw [vtype eh, if_neg (by rw [eh]; simp)]
  simp only [Bool.false_eq_true, if_false, Held.type, ← hu] at hcp ⊢
  rw [hcp]
  simp only [Ret.bind, Bool.true_and, decide_true, if_true, copyConstruct, hcc, hd, hacc, hc]
  cases copyable (L.ty t) <;> cases (P.ty t).copy v <;> simp

/-- C78: no two variants share an object, and no two objects an address. -/
theorem C78_apart {P : Prog} {L : Layout} (hL : L.Of P) {s : State} (r : Reach P L s) {x y id id' : Nat} {a b : Addr}
    (h : Owns L s x a id) (h' : Owns L s y b id') : (x ≠ y → id ≠ id' ∧ a ≠ b) ∧ (id = id' ↔ a = b) := by
  refine ⟨fun hn => ⟨?_, ?_⟩, ?_, ?_⟩
  · rintro rfl; exact hn (owns_unique r.good.1 h h').1
  · rintro rfl; exact hn (owns_at hL r.good.1 h h').1
  · rintro rfl; exact (owns_unique r.good.1 h h').2
  · rintro rfl; exact (owns_at hL r.good.1 h h').2

/-- C78: an assignment through `x.ref<T>()`: if `x` has a value, then `x` has the new value and nothing else changes; if `x`
    refers to the object of another variant, this is the one that changes. -/
theorem C78_write {P : Prog} {L : Layout} (hL : L.Of P) {s s' : State} (r : Reach P L s) {x v : Nat} (w : Wrote P L s x v s') :
    (∀ t v₀, view s x = some (.val t v₀) → view s' = upd (view s) x (some (.val t v))) ∧
    (∀ t a, view s x = some (.ref t a) → a ≠ 0 → ∃ y t' v₀ id, Owns L s y a id ∧ view s y = some (.val t' v₀) ∧
      view s' = upd (view s) y (some (.val t' v))) ∧
    view s x ≠ some .empty := by
  have g := r.good.1
  cases w with
  | @mk E u y id t v₀ T a sh he hm hr hy ho =>
    obtain ⟨k1, k2⟩ := view_overwrite (v := v) g ho hy
    have hst := C78_stands hL r sh he
    refine ⟨fun t' v₁ h => ?_, fun t' a' h h0 => ?_, fun h => ?_⟩
    · obtain ⟨sd, a', id', ho', hi', st⟩ := hst.2.1 t' v₁ h
      have hg := (owns_of_val hL g he h).1
      rcases hm with ⟨hm, rfl⟩ | ⟨hm, _⟩
      · rw [hg] at hm
        cases hm
        rw [(ownType sd st).1] at hr
        cases hr
        obtain ⟨rfl, rfl⟩ := owns_at hL g ho' hy
        exact k2
      · rw [hg] at hm; cases hm
    · obtain ⟨sd, st⟩ := hst.2.2 t' a' h h0
      rcases hm with ⟨hm, _⟩ | ⟨hm, rfl⟩
      · obtain ⟨_, hh, hu⟩ := st.held
        exfalso
        obtain ⟨m, c⟩ := u
        dsimp only at hm; subst hm
        obtain ⟨_, _, _, hc, _⟩ := g.located he
        simp [view, he, hc] at h
      · obtain ⟨m, c⟩ := u
        dsimp only at hm; subst hm
        obtain ⟨a'', rfl⟩ := g.refs _ _ _ he
        simp [view, he, content] at h
        obtain ⟨rfl, rfl⟩ := h
        rw [(ownType sd st).1] at hr
        cases hr
        exact ⟨y, t, v₀, id, hy, k1, k2⟩
    · have := hst.1 h
      rw [(C42_empty E _ this .ref _ false ⟨.none, L.ty t⟩).1] at hr; cases hr

/-- C78: a variant that contains a pointer shows this pointer to its readers. -/
theorem C78_pointer {P : Prog} {L : Layout} (hL : L.Of P) {s : State} (r : Reach P L s) {E : Env} (sh : Shows P L s E)
    {x t v : Nat} {u : Var} (e : s.env (some x) = some u) (hx : view s x = some (.val t v)) {q : CV} {el : CType} (ht : L.ty t = .ptr q el) :
    ∃ a id, Owns L s x a id ∧ s.mem.objs id = some ⟨t, v⟩ ∧ Stands (seen L s.mem x u) (.ptr ⟨false, false⟩ el) a ∧
      E.load a = L.bits t v := by
  have g := r.good.1
  obtain ⟨hm, a, id, ho, hi, st⟩ := owns_of_val hL g e hx
  have hsm : (P.ty t).place = .small := (hL.small t).2 ⟨by rw [ht]; nofun, by rw [ht]; simp [CType.sizeOf]⟩
  have hl := sh.word x u e
  rw [ht] at st
  refine ⟨a, id, ho, hi, st, ?_⟩
  obtain ⟨m, c⟩ := u
  dsimp only at hm
  subst hm
  obtain ⟨id', w, hc, _⟩ := g.small _ _ _ e hsm
  cases hc
  cases ho with
  | inside e' => rw [e] at e'; cases e'; rw [hl]; simp [word, hi]
  | onHeap e' _ => rw [e] at e'; cases e'

/-- there is such an environment for every reachable state: the theorems above speak about all of them -/
theorem C78_shown {P : Prog} {L : Layout} (hL : L.Of P) {s : State} (r : Reach P L s) (E₀ : Env) :
    ∃ E, Shows P L s E ∧ E.w = E₀.w ∧ E.info = E₀.info ∧ E.dyn = E₀.dyn ∧ E.tid = E₀.tid ∧ E.conv = E₀.conv := by
  classical
  refine ⟨{ E₀ with
    load := fun a => if h : ∃ x v, L.var x = a ∧ s.env (some x) = some v then word L s.mem h.choose_spec.choose.cell else E₀.load a
    copyThrows := fun T a => if h : ∃ t v, Holds L s a t v ∧ (L.ty t).fullDecay = T then
      ((P.ty h.choose).copy h.choose_spec.choose).isNone else E₀.copyThrows T a }, ⟨fun x v e => ?_, fun a t v h => ?_⟩, rfl, rfl, rfl, rfl, rfl⟩
  · have h : ∃ x' v', L.var x' = L.var x ∧ s.env (some x') = some v' := ⟨x, v, rfl, e⟩
    have k := h.choose_spec.choose_spec
    have gen : ∀ x' v', L.var x' = L.var x ∧ s.env (some x') = some v' → v' = v := fun x' v' h =>
      Option.some.inj ((h.2.symm.trans (congrArg (fun z => s.env (some z)) (hL.varInj _ _ h.1))).trans e)
    simp only [dif_pos h]
    rw [gen _ _ k]
  · have h' : ∃ t' v', Holds L s a t' v' ∧ (L.ty t').fullDecay = (L.ty t).fullDecay := ⟨t, v, h, rfl⟩
    have k := h'.choose_spec.choose_spec.1
    simp only [dif_pos h']
    have gen : ∀ t' v', Holds L s a t' v' → t' = t ∧ v' = v := by
      rintro t' v' ⟨x', id', o', hi'⟩
      obtain ⟨x, id, o, hi⟩ := h
      obtain ⟨_, rfl⟩ := owns_at hL r.good.1 o o'
      rw [hi] at hi'
      cases hi'
      exact ⟨rfl, rfl⟩
    have cong : ∀ t' v', t' = t ∧ v' = v → ((P.ty t').copy v').isNone = ((P.ty t).copy v).isNone := by rintro _ _ ⟨rfl, rfl⟩; rfl
    exact cong _ _ (gen _ _ k)

end Rtti.Props
