import Verif.Examples.Worlds
/-! C17 for the empty name and for null invokers: what the other C17 theorems leave out. -/
set_option autoImplicit false
namespace Rtti.Props
open Rtti Spec World

/-- no live object and no list of a container changed -/
structure Untouched (w w' : World) : Prop where
  kind : w'.kind = w.kind
  objects : ∀ q, (w.kind q).isSome = true → w'.name q = w.name q ∧ w'.owner q = w.owner q ∧ w'.cls q = w.cls q
  lists : ∀ c k, w.isContainer c = true → w'.cont c k = w.cont c k
  types : w'.valid = w.valid ∧ w'.metaClass = w.metaClass

/-- The first unnamed object is made and returned, though no look-up finds it; each later one is deleted again and the call
    returns null. -/
def DefinesUnnamed (w w' : World) (res : Res (Option Ptr)) (o : Ptr) (k : Cat) : Prop :=
  ((∀ x ∈ (w.cont o k).items, x.name ≠ []) ∧
    ∃ p, res = .val (some p) ∧ CreatedObject w w' o k [] p ∧ w'.getItem o k [] = .val none) ∨
  ((∃ x ∈ (w.cont o k).items, x.name = []) ∧ res = .val none ∧ Untouched w w')

theorem definesUnnamed {rank : TypeId → Nat} {w : World} (h : Reachable rank w) {o : Ptr} (ho : w.isContainer o = true) (k : Cat)
    (t : TypeId) (stored : World → Ptr → World)
    (hst : stored ((w.alloc k [] o t).addItem o k ⟨w.next, []⟩).1 w.next = w.created o k [] t) :
    DefinesUnnamed w (w.getOrCreate o k [] t (fun w => w.getItem o k []) stored).1
      (w.getOrCreate o k [] t (fun w => w.getItem o k []) stored).2 o k := by
  have i := Inv.reachable h
  have hnone : ∀ {v : World}, v.isContainer o = true → v.getItem o k [] = .val none := by
    intro v hv; simp [getItem_val hv, ItemList.get]
  by_cases hx : ∀ x ∈ (w.cont o k).items, x.name ≠ []
  · left
    refine ⟨hx, w.next, ?_⟩
    have ha := i.add_succeeds o ho k [] t hx
    rcases getOrCreate_cases w o k [] t (fun w => w.getItem o k []) stored hst with ⟨h1, _⟩ | ⟨_, _, e⟩ | ⟨_, h2, _⟩
    · exact absurd (hnone ho) h1
    · rw [e]
      exact ⟨rfl, i.createdObject o ho k [] t hx, hnone (i.isContainer_created ho k [] t ho)⟩
    · rw [ha] at h2; cases h2
  · right
    have hx' : ∃ x ∈ (w.cont o k).items, x.name = [] := by
      refine Classical.byContradiction fun hn => hx fun x hm e => hn ⟨x, hm, e⟩
    refine ⟨hx', ?_⟩
    rcases getOrCreate_cases w o k [] t (fun w => w.getItem o k []) stored hst with ⟨h1, _⟩ | ⟨_, h2, _⟩ | ⟨_, h2, e⟩
    · exact absurd (hnone ho) h1
    · exfalso
      have hon := i.container_ne_next ho
      have h2' : ((w.cont o k).add (some ⟨w.next, []⟩)).2 = true := by
        simpa [addItem, Container.addItem, alloc, upd_ne _ _ hon] using h2
      have sp := (i.wf o k).add_spec ⟨w.next, []⟩
      split at sp
      · rw [sp] at h2'; cases h2'
      · rename_i hne
        obtain ⟨x, hm, en⟩ := hx'
        exact hne (.inr ⟨x, hm, en⟩)
    · have hk : (w.refusedWorld o k [] t).kind = w.kind := by
        funext q
        simp only [refusedWorld, free, addItem, alloc, upd]
        split
        · rename_i e; rw [e, i.kind_next]
        · rfl
      have hc : (w.refusedWorld o k [] t).isContainer o = true := by
        simp only [isContainer, hk] at ho ⊢; exact ho
      rw [e]
      refine ⟨hnone hc, hk, ?_, ?_, rfl, rfl⟩
      · intro q hq
        have hne : q ≠ w.next := by rintro rfl; rw [i.kind_next] at hq; cases hq
        simp [refusedWorld, free, addItem, alloc, upd, hne]
      · intro c k' hc'
        exact (i.refused o ho k [] t h2).2 c k' (i.container_ne_next hc')

/-- C17 for unnamed namespaces and enums. -/
theorem C17_unnamed {rank : TypeId → Nat} {w : World} (h : Reachable rank w) {o : Ptr} (ho : w.isContainer o = true) :
    DefinesUnnamed w (w.createNamespace o []).1 (w.createNamespace o []).2 o .nmspace ∧
    DefinesUnnamed w (w.createEnum o []).1 (w.createEnum o []).2 o .enum :=
  ⟨definesUnnamed h ho .nmspace 0 _ (stored_id w o (by decide) [] 0), definesUnnamed h ho .enum 0 _ (stored_id w o (by decide) [] 0)⟩

/-- C17 for unnamed classes: also refused for an invalid type and for one that has a class. -/
theorem C17_unnamed_class {rank : TypeId → Nat} {w : World} (h : Reachable rank w) {o : Ptr} (ho : w.isContainer o = true)
    (t : TypeId) :
    (w.valid t = false ∧ w.createClass o [] t = (w, .throw .invalidTypeId)) ∨
    (w.valid t = true ∧ (w.find t).isSome = true ∧ w.createClass o [] t = (w, .throw .duplicateClass)) ∨
    (w.valid t = true ∧ w.find t = none ∧
      DefinesUnnamed w (w.createClass o [] t).1 (w.createClass o [] t).2 o .cls) := by
  have hg : w.getItem o .cls [] = .val none := by simp [getItem_val ho, ItemList.get]
  unfold createClass
  rw [hg]
  cases hv : w.valid t with
  | false => left; simp
  | true =>
    right
    cases hm : w.metaClass t with
    | some q => left; simp [find, hv, hm]
    | none =>
      right
      simp only [Bool.not_true, Bool.false_eq_true, if_false, Option.isSome_none, find, hv, if_true, hm, true_and]
      exact definesUnnamed h ho .cls t _ (stored_cls w o [] t)

/-- C17: a property without a name, and anything without an invoker, is refused: null is returned and nothing changes. -/
theorem C17_refused (w : World) (o : Ptr) (n : Str) (i : Bool) :
    w.createProperty o [] i = (w, .val none) ∧ w.createProperty o n false = (w, .val none) ∧
    w.createMethod o n false = (w, .val none) ∧ w.createConstructor o n false = (w, .val none) := by
  simp [createProperty, createMethod, createConstructor]

/- both cases of `DefinesUnnamed` occur, for each of the three -/
example : (Ex.diamond.createNamespace 1 []).2 = .val (some 10) ∧ (Ex.diamond.createEnum 5 []).2 = .val (some 10) := by decide
example : let w := (Ex.diamond.createEnum 5 []).1
    w.isContainer 5 = true ∧ (w.createEnum 5 []).2 = .val none ∧ (w.createNamespace 5 []).2 = .val (some 11) := by decide
example : let w := Ex.diamond.run [.registerType 7, .registerType 8, .createClass 5 [] 7]
    w.isContainer 5 = true ∧ (w.createClass 5 [] 8).2 = .val none ∧ (w.createClass 5 [] 7).2 = .throw .duplicateClass ∧
    (w.createClass 5 [] 9).2 = .throw .invalidTypeId ∧ (w.createClass 1 [] 8).2 = .val (some 11) := by decide

end Rtti.Props
