import Verif.Props.Define
/-
C59 for members found in base classes: what later definitions can and cannot change.
-/
set_option autoImplicit false
namespace Rtti.Props
open Spec World

theorem Grows.find {w w' : World} (g : Grows w w') {t : TypeId} {p : Ptr} (h : w.find t = some p) : w'.find t = some p := by
  unfold World.find at h ⊢
  split at h
  · rename_i hv
    rw [if_pos (g.valid _ hv)]
    exact g.metaClass _ _ h
  · cases h

theorem reaches_grows {rank} {w w' : World} (i : Inv rank w) (i' : Inv rank w') (g : Grows w w') {c a : Ptr} (hc : w.kind c = some .cls)
    (h : Reaches w c a) : Reaches w' c a := by
  induction h with
  | refl => exact .refl _
  | step h1 _ ih =>
    obtain ⟨x, hx, hq⟩ := (declaredBase_iff i _ _).1 h1
    obtain ⟨s, hs⟩ := g.bases _ hc
    exact .step ((declaredBase_iff i' _ _).2 ⟨x, by rw [hs]; exact List.mem_append_left _ hx, Grows.find g hq⟩) (ih (i.find_cls hq).1)

/-- a member found stays found if the classes searched in vain before it get no base and no member of that name -/
theorem finds_grows {rank} {w w' : World} (i : Inv rank w) (i' : Inv rank w') (g : Grows w w') {Own Own' : Ptr → Ptr → Prop} {c m : Ptr}
    (hown : ∀ a m, Own a m → Own' a m) (hc : w.kind c = some .cls)
    (hs : ∀ a, Reaches w c a → (∀ x, ¬ Own a x) → (w'.cls a).bases = (w.cls a).bases ∧ ∀ x, ¬ Own' a x)
    (h : Finds w Own c m) : Finds w' Own' c m := by
  induction h with
  | own h => exact .own (hown _ _ h)
  | @base c q m t f pre post hn h1 h2 h3 h4 ih =>
    have hd : ∀ x q', x ∈ (w.cls c).bases → w.find x.1 = some q' → DeclaredBase w c q' := fun x q' hx hq => (declaredBase_iff i _ _).2 ⟨x, hx, hq⟩
    obtain ⟨hb, hno⟩ := hs c (.refl _) hn
    refine .base hno (hb.trans h1) (Grows.find g h2) ?_ (ih (i.find_cls h2).1 fun a ha => hs a (.step (hd (t, f) q (by rw [h1]; simp) h2) ha))
    intro x hx q' hq a m' hr ho
    have hx' : x ∈ (w.cls c).bases := by rw [h1]; simp [hx]
    obtain ⟨b, hb1, _⟩ := i.bases c hc x hx'
    have hf : w.find x.1 = some b := by
      have := (i.mc _ _ hb1).1
      simp [World.find, this, hb1]
    have hbq : b = q' := by
      have := (Grows.find g hf).symm.trans hq
      simpa using this
    subst hbq
    have hk := (i.find_cls hf).1
    have hsil := h3 x hx b hf
    have hreach : ∀ a, Reaches w b a → Reaches w c a := fun a ha => .step (hd x b hx' hf) ha
    have hback : Reaches w b a := by
      clear ho
      have key : ∀ y, Reaches w b y → ∀ a, Reaches w' y a → Reaches w b a := by
        intro y hy a hr
        induction hr with
        | refl => exact hy
        | @step d m' b' h5 _ ih2 =>
          obtain ⟨z, hz, hq2⟩ := (declaredBase_iff i' _ _).1 h5
          have hbs := (hs d (hreach d hy) (fun x => hsil d x hy)).1
          rw [hbs] at hz
          have hkd := Reaches.kind i hy hk
          obtain ⟨b2, hb2, _⟩ := i.bases d hkd z hz
          have hf2 : w.find z.1 = some b2 := by
            have := (i.mc _ _ hb2).1
            simp [World.find, this, hb2]
          have e : b2 = m' := by
            have := (Grows.find g hf2).symm.trans hq2
            simpa using this
          subst e
          exact ih2 (Reaches.trans hy (.step ((declaredBase_iff i _ _).2 ⟨z, hz, hf2⟩) (.refl _)))
      exact key b (.refl _) a hr
    exact (hs a (hreach a hback) (fun x => hsil a x hback)).2 m' ho

private theorem ownMethod_grows {rank} {w w' : World} (i : Inv rank w) (g : Grows w w') {n : Str} {a m : Ptr}
    (h : OwnMethod w n a m) : OwnMethod w' n a m := by
  obtain ⟨it, e, pre, post, h1, h2, h3⟩ := h
  have hc := (i.items a .method it (by rw [h1]; simp)).1
  obtain ⟨s, hs⟩ := g.items a .method hc
  exact ⟨it, e, pre, post ++ s, by rw [hs, h1]; simp, h2, h3⟩

private theorem ownProperty_grows {rank} {w w' : World} (i : Inv rank w) (g : Grows w w') {n : Str} {a m : Ptr}
    (h : OwnProperty w n a m) : OwnProperty w' n a m := by
  obtain ⟨it, h1, h2⟩ := h
  have hc := (i.items a .property it h1).1
  obtain ⟨s, hs⟩ := g.items a .property hc
  exact ⟨it, by rw [hs]; simp [h1], h2⟩

/-- C59 for inherited members: an answer never gets lost; and it stays the same as long as the classes the search went through without
    finding anything get no base class and no member of that name. (What else was defined, and what those get that have one, does not
    matter; without the condition: `C59_false_inherited`.) -/
theorem C59_inherited {rank} {w w' : World} (h : Reachable rank w) (l : Later rank w w') (c : Ptr) (n : Str) (m : Ptr)
    (hc : w.kind c = some .cls) (hm : w.getMethod c n = .val (some m)) :
    (∃ m', w'.getMethod c n = .val (some m')) ∧
    ((∀ a, Reaches w c a → (∀ x, ¬ OwnMethod w n a x) → (w'.cls a).bases = (w.cls a).bases ∧ ∀ x, ¬ OwnMethod w' n a x) →
      w'.getMethod c n = .val (some m)) := by
  have hn : n ≠ [] := by rintro rfl; simp [getMethod] at hm
  obtain ⟨h', g⟩ := later_grows h l
  have i := Inv.reachable h
  have i' := Inv.reachable h'
  have hc' := g.kind _ _ hc
  obtain ⟨r, e, hr, _⟩ := i.classMethodF_spec n hn w.depth c hc (below_lt_depth _ _ _)
  obtain ⟨r', e', hr', hr0⟩ := i'.classMethodF_spec n hn w'.depth c hc' (below_lt_depth _ _ _)
  simp only [getMethod, if_neg hn, hc, hc', e, e', Res.val.injEq] at hm ⊢
  have hf := hr m hm
  obtain ⟨a, ha, ho⟩ := Finds.exists_own i hf
  have hsome : ∃ m', r' = some m' := by
    cases hx : r' with
    | none => exact absurd (ownMethod_grows i g ho) (hr0 hx a m (reaches_grows i i' g hc ha))
    | some x => exact ⟨x, rfl⟩
  refine ⟨hsome, fun hs => ?_⟩
  obtain ⟨m', hx⟩ := hsome
  have := Finds.unique (Own := OwnMethod w' n) i' (fun _ _ _ h1 h2 => OwnMethod.unique h1 h2) (hr' m' hx) (finds_grows (Own' := OwnMethod w' n) i i' g (fun a m => ownMethod_grows (n := n) (a := a) (m := m) i g) hc hs hf)
  rw [hx, this]

/-- The same for properties. -/
theorem C59_inherited_property {rank} {w w' : World} (h : Reachable rank w) (l : Later rank w w') (c : Ptr) (n : Str) (m : Ptr)
    (hc : w.kind c = some .cls) (hm : w.getProperty c n = .val (some m)) :
    (∃ m', w'.getProperty c n = .val (some m')) ∧
    ((∀ a, Reaches w c a → (∀ x, ¬ OwnProperty w n a x) → (w'.cls a).bases = (w.cls a).bases ∧ ∀ x, ¬ OwnProperty w' n a x) →
      w'.getProperty c n = .val (some m)) := by
  have hn : n ≠ [] := by
    rintro rfl
    simp only [getProperty, hc, depth] at hm
    unfold classPropertyF at hm
    simp at hm
  obtain ⟨h', g⟩ := later_grows h l
  have i := Inv.reachable h
  have i' := Inv.reachable h'
  have hc' := g.kind _ _ hc
  obtain ⟨r, e, hr, _⟩ := i.classPropertyF_spec n hn w.depth c hc (below_lt_depth _ _ _)
  obtain ⟨r', e', hr', hr0⟩ := i'.classPropertyF_spec n hn w'.depth c hc' (below_lt_depth _ _ _)
  simp only [getProperty, hc, hc', e, e', Res.val.injEq] at hm ⊢
  have hf := hr m hm
  obtain ⟨a, ha, ho⟩ := Finds.exists_own i hf
  have hsome : ∃ m', r' = some m' := by
    cases hx : r' with
    | none => exact absurd (ownProperty_grows i g ho) (hr0 hx a m (reaches_grows i i' g hc ha))
    | some x => exact ⟨x, rfl⟩
  refine ⟨hsome, fun hs => ?_⟩
  obtain ⟨m', hx⟩ := hsome
  have hu : ∀ c m m', OwnProperty w' n c m → OwnProperty w' n c m' → m = m' := by
    rintro c _ _ ⟨it, h1, h2, rfl⟩ ⟨it', h1', h2', rfl⟩
    have a1 := ((i'.wf c .property).get_iff n it).2 ⟨hn, h1, h2⟩
    have a2 := ((i'.wf c .property).get_iff n it').2 ⟨hn, h1', h2'⟩
    rw [a1] at a2
    cases a2; rfl
  have := Finds.unique i' hu (hr' m' hx) (finds_grows (Own' := OwnProperty w' n) i i' g (fun a m => ownProperty_grows (n := n) (a := a) (m := m) i g) hc hs hf)
  rw [hx, this]

/-- the classes 2 and 3 are bases of 4, in this order, and 3 has `f`: it is found; other methods of 2 change nothing, a `f` of 2 does -/
example : Ex.twoBases.getMethod 4 ['f', '(', ')'] = .val (some 5) ∧
    (Ex.twoBases.step (.createMethod 2 ['g', '(', ')'] true)).1.getMethod 4 ['f', '(', ')'] = .val (some 5) ∧
    (Ex.twoBases.step (.createMethod 2 ['f', '(', ')'] true)).1.getMethod 4 ['f', '(', ')'] = .val (some 6) := by decide

end Rtti.Props
