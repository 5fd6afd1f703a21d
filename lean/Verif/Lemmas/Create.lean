import Verif.Lemmas.Graph
namespace Rtti
open Spec
namespace World

theorem findMethod_none_iff (n : Str) (its : List Item) :
    findMethod n its = some none ↔ ∀ x ∈ its, ¬ Denotes n x.name := by
  obtain ⟨r, e, _, h⟩ := findMethod_spec n its
  rw [e]; rw [← h]; simp

theorem findMethod_some_iff (n : Str) (its : List Item) (x : Item) :
    findMethod n its = some (some x) ↔ IsFirst (fun it : Item => Denotes n it.name) its x := by
  obtain ⟨r, e, h, _⟩ := findMethod_spec n its
  rw [e, ← h]; simp

theorem findMethod_snoc {n : Str} {its : List Item} (p : Ptr)
    (h : findMethod n its = some none) : findMethod n (its ++ [⟨p, n⟩]) = some (some ⟨p, n⟩) := by
  rw [findMethod_none_iff] at h
  rw [findMethod_some_iff]
  exact ⟨its, [], rfl, .inl rfl, h⟩

theorem findMethod_append {n : Str} {its its' : List Item} {x : Item}
    (h : findMethod n its = some (some x)) : findMethod n (its ++ its') = some (some x) := by
  rw [findMethod_some_iff] at h ⊢
  obtain ⟨pre, post, h1, h2, h3⟩ := h
  exact ⟨pre, post ++ its', by simp [h1], h2, h3⟩

/-- when no member of that name is there the addition succeeds -/
theorem Inv.add_succeeds {rank} {w : World} (i : Inv rank w) (o : Ptr) (ho : w.isContainer o = true)
    (k : Cat) (n : Str) (t : TypeId) (h : ∀ x ∈ (w.cont o k).items, x.name ≠ n) :
    ((w.alloc k n o t).addItem o k ⟨w.next, n⟩).2 = true := by
  have hon := i.container_ne_next ho
  have hs := (i.wf o k).add_spec ⟨w.next, n⟩
  rw [if_neg] at hs
  · simpa [addItem, Container.addItem, alloc, upd_ne _ _ hon] using hs.2
  · simp only [not_or, not_exists, not_and]
    refine ⟨fun x hx e => ?_, h⟩
    have := (i.items o k x hx).2.1
    rw [e, i.kind_next] at this; cases this

theorem created_kind (w : World) (o k n t) : (w.created o k n t).kind = upd w.kind w.next (some k) := by
  unfold created; simp only; split <;> rfl
theorem created_name (w : World) (o k n t) : (w.created o k n t).name = upd w.name w.next n := by
  unfold created; simp only; split <;> rfl
theorem created_owner (w : World) (o k n t) : (w.created o k n t).owner = upd w.owner w.next (some o) := by
  unfold created; simp only; split <;> rfl
theorem created_cls (w : World) (o k n t) : (w.created o k n t).cls = upd w.cls w.next ⟨t, [], []⟩ := by
  unfold created; simp only; split <;> rfl
theorem created_next (w : World) (o k n t) : (w.created o k n t).next = w.next + 1 := by
  unfold created; simp only; split <;> rfl
theorem created_valid (w : World) (o k n t) : (w.created o k n t).valid = w.valid := by
  unfold created; simp only; split <;> rfl
theorem created_metaClass (w : World) (o k n t) : (w.created o k n t).metaClass =
    if k = .cls then upd w.metaClass t (some w.next) else w.metaClass := by
  unfold created; simp only; split <;> rfl

theorem refused_kind {rank} {w : World} (i : Inv rank w) (o k n t) :
    (w.refusedWorld o k n t).kind = w.kind := by
  funext p
  simp only [refusedWorld, addItem, free, alloc]
  by_cases h : p = w.next
  · subst h; simp [i.kind_next]
  · simp [upd_ne _ _ h]

theorem Inv.kind_ne_next {rank} {w : World} (i : Inv rank w) {p : Ptr} {k : Cat}
    (h : w.kind p = some k) : p ≠ w.next := by
  rintro rfl; rw [i.kind_next] at h; cases h

theorem refused_cls {rank} {w : World} (_ : Inv rank w) (o k n t) {p : Ptr} (hp : p ≠ w.next) :
    (w.refusedWorld o k n t).cls p = w.cls p := by
  simp [refusedWorld, addItem, free, alloc, upd_ne _ _ hp]

/-- live objects keep kind, name and owner; containers only grow; classes keep their type;
    base lists only grow -/
structure Grows (w w' : World) : Prop where
  kind : ∀ p k, w.kind p = some k → w'.kind p = some k
  name : ∀ p k, w.kind p = some k → w'.name p = w.name p
  owner : ∀ p k, w.kind p = some k → w'.owner p = w.owner p
  items : ∀ c k, w.isContainer c = true → ∃ s, (w'.cont c k).items = (w.cont c k).items ++ s
  typeId : ∀ p, w.kind p = some .cls → (w'.cls p).typeId = (w.cls p).typeId
  bases : ∀ p, w.kind p = some .cls → ∃ s, (w'.cls p).bases = (w.cls p).bases ++ s
  derived : ∀ p, w.kind p = some .cls → ∃ s, (w'.cls p).derived = (w.cls p).derived ++ s
  valid : ∀ t, w.valid t = true → w'.valid t = true
  metaClass : ∀ t p, w.metaClass t = some p → w'.metaClass t = some p

theorem Grows.refl (w : World) : Grows w w :=
  ⟨fun _ _ h => h, fun _ _ _ => rfl, fun _ _ _ => rfl, fun _ _ _ => ⟨[], by simp⟩, fun _ _ => rfl,
   fun _ _ => ⟨[], by simp⟩, fun _ _ => ⟨[], by simp⟩, fun _ h => h, fun _ _ h => h⟩

theorem Grows.isContainer {w w' : World} (g : Grows w w') {c : Ptr} (h : w.isContainer c = true) :
    w'.isContainer c = true := by
  rw [isContainer_iff] at h ⊢
  rcases h with h | h
  · exact .inl (g.kind _ _ h)
  · exact .inr (g.kind _ _ h)

theorem Grows.trans {w1 w2 w3 : World} (a : Grows w1 w2) (b : Grows w2 w3) : Grows w1 w3 := by
  refine ⟨fun p k h => b.kind p k (a.kind p k h),
    fun p k h => (b.name p k (a.kind p k h)).trans (a.name p k h),
    fun p k h => (b.owner p k (a.kind p k h)).trans (a.owner p k h), ?_,
    fun p h => (b.typeId p (a.kind p _ h)).trans (a.typeId p h), ?_, ?_,
    fun t h => b.valid t (a.valid t h), fun t p h => b.metaClass t p (a.metaClass t p h)⟩
  · intro c k h
    obtain ⟨s, hs⟩ := a.items c k h
    obtain ⟨s', hs'⟩ := b.items c k (a.isContainer h)
    exact ⟨s ++ s', by rw [hs', hs]; simp⟩
  · intro p h
    obtain ⟨s, hs⟩ := a.bases p h
    obtain ⟨s', hs'⟩ := b.bases p (a.kind _ _ h)
    exact ⟨s ++ s', by rw [hs', hs]; simp⟩
  · intro p h
    obtain ⟨s, hs⟩ := a.derived p h
    obtain ⟨s', hs'⟩ := b.derived p (a.kind _ _ h)
    exact ⟨s ++ s', by rw [hs', hs]; simp⟩

theorem Inv.grows_created {rank} {w : World} (i : Inv rank w) (o : Ptr) (ho : w.isContainer o = true)
    (k : Cat) (n : Str) (t : TypeId) (hr : ((w.alloc k n o t).addItem o k ⟨w.next, n⟩).2 = true)
    (hc : k = .cls → w.valid t = true ∧ w.metaClass t = none) :
    Grows w (w.created o k n t) := by
  obtain ⟨hit, _, _⟩ := i.created_facts o ho k n t hr
  constructor
  · intro p k' h; rw [created_kind, upd_ne _ _ (i.kind_ne_next h)]; exact h
  · intro p k' h; rw [created_name, upd_ne _ _ (i.kind_ne_next h)]
  · intro p k' h; rw [created_owner, upd_ne _ _ (i.kind_ne_next h)]
  · intro c k' h
    rw [hit]
    split
    · rename_i e; obtain ⟨rfl, rfl⟩ := e; exact ⟨_, rfl⟩
    · rw [if_neg (i.container_ne_next h)]; exact ⟨[], by simp⟩
  · intro p h; rw [created_cls, upd_ne _ _ (i.kind_ne_next h)]
  · intro p h; rw [created_cls, upd_ne _ _ (i.kind_ne_next h)]; exact ⟨[], by simp⟩
  · intro p h; rw [created_cls, upd_ne _ _ (i.kind_ne_next h)]; exact ⟨[], by simp⟩
  · intro t h; rw [created_valid]; exact h
  · intro t' p h
    rw [created_metaClass]
    split
    · rename_i e
      have : t' ≠ t := by rintro rfl; rw [(hc e).2] at h; cases h
      rw [upd_ne _ _ this]; exact h
    · exact h

theorem Inv.grows_refused {rank} {w : World} (i : Inv rank w) (o : Ptr) (ho : w.isContainer o = true)
    (k : Cat) (n : Str) (t : TypeId) (hr : ((w.alloc k n o t).addItem o k ⟨w.next, n⟩).2 = false) :
    Grows w (w.refusedWorld o k n t) := by
  obtain ⟨_, hit⟩ := i.refused o ho k n t hr
  constructor
  · intro p k' h; rw [refused_kind i]; exact h
  · intro p k' h; simp [refusedWorld, addItem, free, alloc, upd_ne _ _ (i.kind_ne_next h)]
  · intro p k' h; simp [refusedWorld, addItem, free, alloc, upd_ne _ _ (i.kind_ne_next h)]
  · intro c k' h
    refine ⟨[], ?_⟩
    rw [refusedWorld, hit c k' (i.container_ne_next h)]; simp
  · intro p h; rw [refused_cls i _ _ _ _ (i.kind_ne_next h)]
  · intro p h; rw [refused_cls i _ _ _ _ (i.kind_ne_next h)]; exact ⟨[], by simp⟩
  · intro p h; rw [refused_cls i _ _ _ _ (i.kind_ne_next h)]; exact ⟨[], by simp⟩
  · intro t h; exact h
  · intro t p h; exact h

theorem Inv.grows_getOrCreate {rank} {w : World} (i : Inv rank w) (o : Ptr) (ho : w.isContainer o = true)
    (k : Cat) (n : Str) (t : TypeId) (look : World → Res (Option Ptr))
    (stored : World → Ptr → World)
    (hst : stored ((w.alloc k n o t).addItem o k ⟨w.next, n⟩).1 w.next = w.created o k n t)
    (hc : k = .cls → w.valid t = true ∧ w.metaClass t = none) :
    Grows w (w.getOrCreate o k n t look stored).1 := by
  rcases getOrCreate_cases w o k n t look stored hst with ⟨_, h⟩ | ⟨_, h1, h⟩ | ⟨_, h1, h⟩
  · rw [h]; exact .refl w
  · rw [h]; exact i.grows_created o ho k n t h1 hc
  · rw [h]; exact i.grows_refused o ho k n t h1

theorem Inv.grows_addBase {rank} {w : World} (i : Inv rank w) (this : Ptr)
    (hk : w.kind this = some .cls) (t : TypeId) (c : Caster)
    (hr : rank t < rank (w.cls this).typeId) : Grows w (w.addBaseClass this t c).1 := by
  rcases addBaseClass_eq i this hk t c with ⟨_, h⟩ | ⟨_, _, h⟩ | ⟨base, hv, hm, _, h⟩
  · rw [h]; exact .refl w
  · rw [h]; exact .refl w
  · obtain ⟨_, hbk, hbt⟩ := i.mc t base hm
    have hne : base ≠ this := by rintro rfl; rw [hbt] at hr; omega
    rw [h]
    have hbs : ∀ l c, ∃ s, basesAdd l t c = l ++ s := by
      intro l c; unfold basesAdd; split
      · exact ⟨[], by simp⟩
      · exact ⟨_, rfl⟩
    have hds : ∀ l t, ∃ s, derivedAdd l t = l ++ s := by
      intro l t; unfold derivedAdd; split
      · exact ⟨[], by simp⟩
      · exact ⟨_, rfl⟩
    constructor
    · intro p k h; exact h
    · intro p k h; rfl
    · intro p k h; rfl
    · intro c k h; exact ⟨[], by simp⟩
    · intro p h
      simp only
      by_cases h2 : p = base
      · subst h2; simp [upd_ne _ _ hne]
      · rw [upd_ne _ _ h2]
        by_cases h1 : p = this
        · subst h1; simp
        · rw [upd_ne _ _ h1]
    · intro p h
      simp only
      by_cases h2 : p = base
      · subst h2; refine ⟨[], ?_⟩; simp [upd_ne _ _ hne]
      · rw [upd_ne _ _ h2]
        by_cases h1 : p = this
        · subst h1; simp only [upd_same]; exact hbs _ _
        · rw [upd_ne _ _ h1]; exact ⟨[], by simp⟩
    · intro p h
      simp only
      by_cases h2 : p = base
      · subst h2; simp only [upd_same, upd_ne _ _ hne]; exact hds _ _
      · rw [upd_ne _ _ h2]
        by_cases h1 : p = this
        · subst h1; exact ⟨[], by simp⟩
        · rw [upd_ne _ _ h1]; exact ⟨[], by simp⟩
    · intro t h; exact h
    · intro t p h; exact h

theorem Inv.grows_step {rank} {w : World} (i : Inv rank w) (op : Op) (hl : Legal rank w op) :
    Grows w (w.step op).1 := by
  cases op with
  | registerType t =>
    simp only [World.step]
    split
    · exact .refl w
    · constructor
      · intro p k h; exact h
      · intro p k h; rfl
      · intro p k h; rfl
      · intro c k h; exact ⟨[], by simp⟩
      · intro p h; rfl
      · intro p h; exact ⟨[], by simp⟩
      · intro p h; exact ⟨[], by simp⟩
      · intro t' h
        by_cases e : t' = t
        · subst e; simp
        · simp only [upd_ne _ _ e]; exact h
      · intro t p h; exact h
  | createNamespace o n =>
    simp only [World.step, createNamespace]
    cases hc : w.isContainer o with
    | true => exact i.grows_getOrCreate o hc _ _ _ _ _ (stored_id w o (by decide) n 0) (by simp)
    | false => simp [World.getOrCreate, getItem_ub hc, Grows.refl]
  | createEnum o n =>
    simp only [World.step, createEnum]
    cases hc : w.isContainer o with
    | true => exact i.grows_getOrCreate o hc _ _ _ _ _ (stored_id w o (by decide) n 0) (by simp)
    | false => simp [World.getOrCreate, getItem_ub hc, Grows.refl]
  | createClass o n t =>
    simp only [World.step, createClass]
    cases hc : w.isContainer o with
    | false => simp [getItem_ub hc, Grows.refl]
    | true =>
      split
      · split
        · exact .refl w
        · rename_i hv
          split
          · exact .refl w
          · rename_i hm
            exact i.grows_getOrCreate o hc _ _ _ _ _ (stored_cls w o n t) (fun _ => by
              simp at hv hm; exact ⟨hv, hm⟩)
      · exact .refl w
  | createMethod o s b =>
    simp only [World.step]
    split
    · rename_i hc
      simp only [createMethod]
      split
      · exact .refl w
      · exact i.grows_getOrCreate o hc _ _ _ _ _ (stored_id w o (by decide) s 0) (by simp)
    · exact .refl w
  | createProperty o n b =>
    simp only [World.step]
    split
    · rename_i hc
      simp only [createProperty]
      split
      · exact .refl w
      · exact i.grows_getOrCreate o hc _ _ _ _ _ (stored_id w o (by decide) n 0) (by simp)
    · exact .refl w
  | createConstructor o s b =>
    simp only [World.step]
    split
    · rename_i hc
      simp only [createConstructor]
      split
      · exact .refl w
      · exact i.grows_getOrCreate o hc _ _ _ _ _ (stored_id w o (by decide) s 0) (by simp)
    · exact .refl w
  | addBase this t c =>
    simp only [World.step]
    split
    · rename_i hk
      have := i.grows_addBase this hk t c hl
      split <;> (rename_i h; rw [h] at this; exact this)
    · exact .refl w

theorem Inv.grows_missed {rank} {w : World} (i : Inv rank w) (o : Ptr) (ho : w.isContainer o = true) (k : Cat) (hk : k = .method ∨ k = .property)
    (n : Str) : Grows w (Spec.missed w o k n) := by
  have hc : k ≠ .cls := by rcases hk with rfl | rfl <;> decide
  exact i.grows_getOrCreate o ho k n 0 _ _ (stored_id w o hc n 0) fun h => absurd h hc

theorem ownMethod_none {w : World} {o : Ptr} {n : Str} (h : w.ownMethod o n = .val none) :
    findMethod n (w.cont o .method).items = some none := by
  unfold ownMethod at h
  split at h <;> simp_all

/-- no own method when the class look-up finds nothing -/
theorem getMethod_none_own {rank} {w : World} (_ : Inv rank w) {o : Ptr} (ho : w.isContainer o = true)
    {n : Str} (hn : n ≠ []) (h : w.getMethod o n = .val none) :
    findMethod n (w.cont o .method).items = some none := by
  unfold getMethod at h
  rw [if_neg hn] at h
  rw [isContainer_iff] at ho
  rcases ho with ho | ho
  · rw [ho] at h; exact ownMethod_none h
  · rw [ho] at h
    simp only [depth] at h
    unfold classMethodF at h
    rw [if_neg hn] at h
    obtain ⟨r, e, _⟩ := ownMethod_spec w o n
    rw [e] at h
    cases r with
    | some p => simp at h
    | none => exact ownMethod_none e

theorem getProperty_none_own {rank} {w : World} (i : Inv rank w) {o : Ptr} (ho : w.isContainer o = true)
    {n : Str} (hn : n ≠ []) (h : w.getProperty o n = .val none) :
    ∀ x ∈ (w.cont o .property).items, x.name ≠ n := by
  have h' : w.ownProperty o n = none := by
    unfold getProperty at h
    rw [isContainer_iff] at ho
    rcases ho with ho | ho
    · rw [ho] at h; simpa using h
    · rw [ho] at h
      simp only [depth] at h
      unfold classPropertyF at h
      rw [if_neg hn] at h
      cases e : w.ownProperty o n with
      | none => rfl
      | some p => rw [e] at h; simp at h
  unfold ownProperty at h'
  rw [Option.map_eq_none_iff, (i.wf o .property).get_none] at h'
  rcases h' with h' | h'
  · exact absurd h' hn
  · exact h'

end World
end Rtti
