import Verif.Model.Shutdown
import Verif.Lemmas.QName
set_option autoImplicit false
namespace Rtti.Shutdown
open Rtti Spec World QName

/-- what `destroyF` destroys, read off the lists -/
def tree (w : World) : Nat → Ptr → List Ptr
  | 0, _ => []
  | n + 1, p => p :: order.flatMap fun k => (w.cont p k).items.flatMap fun x => tree w n x.ptr

/-- `w` after the objects in `l` are gone -/
def kill (w : World) (l : List Ptr) : World := { w with kind := fun q => if q ∈ l then none else w.kind q }

theorem kill_nil (w : World) : kill w [] = w := by simp [kill]
theorem kill_kill (w : World) (l l' : List Ptr) : kill (kill w l) l' = kill w (l ++ l') := by
  simp only [kill, List.mem_append]
  congr 1
  funext q
  by_cases h : q ∈ l <;> by_cases h' : q ∈ l' <;> simp [h, h']
theorem free_eq (w : World) (p : Ptr) : w.free p = kill w [p] := by
  simp only [World.free, kill]
  congr 1
  funext q
  by_cases h : q = p <;> simp [upd, h]

/-- `x` is `q` or an owner of `q` -/
inductive Above (w : World) : Ptr → Ptr → Prop
  | refl (q : Ptr) : Above w q q
  | up {x c q : Ptr} : w.owner q = some c → Above w x c → Above w x q

theorem Above.trans {w : World} {x y z : Ptr} (h : Above w x y) (h' : Above w y z) : Above w x z := by
  induction h' with
  | refl => exact h
  | up e _ ih => exact .up e ih

theorem above_of_tree {rank : TypeId → Nat} {w : World} (i : World.Inv rank w) {n : Nat} {p q : Ptr} (h : q ∈ tree w n p) :
    Above w p q := by
  induction n generalizing p with
  | zero => cases h
  | succ n ih =>
    simp only [tree, List.mem_cons, List.mem_flatMap] at h
    rcases h with rfl | ⟨k, _, x, hx, hq⟩
    · exact .refl _
    · exact Above.trans (.up (i.items _ _ _ hx).2.2.2 (.refl _)) (ih hq)

theorem live_of_tree {rank : TypeId → Nat} {w : World} (i : World.Inv rank w) {n : Nat} {p q : Ptr} (hp : (w.kind p).isSome = true)
    (h : q ∈ tree w n p) : (w.kind q).isSome = true := by
  induction n generalizing p with
  | zero => cases h
  | succ n ih =>
    simp only [tree, List.mem_cons, List.mem_flatMap] at h
    rcases h with rfl | ⟨k, _, x, hx, hq⟩
    · exact hp
    · exact ih (by rw [(i.items _ _ _ hx).2.1]; rfl) hq

/-- owners are older -/
theorem Above.le {w : World} (o : OwnerLt w) {x q : Ptr} (hq : (w.kind q).isSome = true) (h : Above w x q) : x ≤ q := by
  induction h with
  | refl => exact Nat.le_refl _
  | @up c q e _ ih =>
    obtain ⟨k, hk⟩ := Option.isSome_iff_exists.1 hq
    by_cases h1 : q = 1
    · subst h1; rw [o.1] at e; cases e
    · obtain ⟨c', k', h1, h2, h3⟩ := o.2 q k hk h1
      rw [e] at h1; cases h1
      have := ih (by rw [h3]; rfl)
      omega

/-- of two objects above a third, one is above the other -/
theorem Above.linear {w : World} {x y q : Ptr} (h : Above w x q) (h' : Above w y q) : Above w x y ∨ Above w y x := by
  induction h generalizing y with
  | refl => exact .inr h'
  | up e h ih =>
    cases h' with
    | refl => exact .inl (.up e h)
    | up e' h' => rw [e] at e'; cases e'; exact ih h'

/-- siblings have nothing in common -/
theorem siblings {w : World} (o : OwnerLt w) {p x y q : Ptr} (hx : w.owner x = some p) (hy : w.owner y = some p)
    (lx : (w.kind x).isSome = true) (ly : (w.kind y).isSome = true) (h : Above w x q) (h' : Above w y q) : x = y := by
  have key : ∀ a b : Ptr, w.owner a = some p → w.owner b = some p → (w.kind a).isSome = true → (w.kind b).isSome = true →
      Above w a b → a = b := by
    intro a b ha hb la lb h
    cases h with
    | refl => rfl
    | up e h =>
      rw [hb] at e; cases e
      have lt : p < a := by
        obtain ⟨k, hk⟩ := Option.isSome_iff_exists.1 la
        by_cases h1 : a = 1
        · subst h1; rw [o.1] at ha; cases ha
        · obtain ⟨c', _, h1, h2, _⟩ := o.2 a k hk h1
          rw [ha] at h1; cases h1; exact h2
      have lp : (w.kind p).isSome = true := by
        obtain ⟨k, hk⟩ := Option.isSome_iff_exists.1 lb
        by_cases h1 : b = 1
        · subst h1; rw [o.1] at hb; cases hb
        · obtain ⟨c', k', h1, _, h3⟩ := o.2 b k hk h1
          rw [hb] at h1; cases h1; rw [h3]; rfl
      have := h.le o lp
      omega
  rcases h.linear h' with h | h
  · exact key x y hx hy lx ly h
  · exact (key y x hy hx ly lx h).symm

theorem order_nodup : order.Nodup := by decide
theorem mem_order (k : Cat) : k ∈ order := by cases k <;> decide

/-- no object is in two places -/
theorem tree_nodup {rank : TypeId → Nat} {w : World} (i : World.Inv rank w) (o : OwnerLt w) (n : Nat) (p : Ptr)
    (hp : (w.kind p).isSome = true) : (tree w n p).Nodup := by
  induction n generalizing p with
  | zero => exact List.nodup_nil
  | succ n ih =>
    have child : ∀ k x, x ∈ (w.cont p k).items → w.owner x.ptr = some p ∧ (w.kind x.ptr).isSome = true := by
      intro k x hx
      have := i.items _ _ _ hx
      exact ⟨this.2.2.2, by rw [this.2.1]; rfl⟩
    have lt : ∀ k x, x ∈ (w.cont p k).items → p < x.ptr := by
      intro k x hx
      have hk := (i.items _ _ _ hx).2.1
      have ho := (child k x hx).1
      by_cases h1 : x.ptr = 1
      · rw [h1, o.1] at ho; cases ho
      · obtain ⟨c', _, h1, h2, _⟩ := o.2 _ _ hk h1
        rw [ho] at h1; cases h1; exact h2
    refine List.nodup_cons.2 ⟨?_, ?_⟩
    · simp only [List.mem_flatMap]
      rintro ⟨k, _, x, hx, hq⟩
      have := (above_of_tree i hq).le o hp
      have := lt k x hx
      omega
    · refine List.pairwise_flatMap.2 ⟨fun k _ => List.pairwise_flatMap.2 ⟨fun x hx => ih _ (child k x hx).2, ?_⟩, ?_⟩
      · have hn := (i.wf p k).nodupPtr
        rw [List.nodup_iff_pairwise_ne, List.pairwise_map] at hn
        refine hn.imp_of_mem fun {x y} hx hy hne a ha b hb e => hne ?_
        subst e
        exact siblings o (child k x hx).1 (child k y hy).1 (child k x hx).2 (child k y hy).2 (above_of_tree i ha) (above_of_tree i hb)
      · have hn := order_nodup
        rw [List.nodup_iff_pairwise_ne] at hn
        refine hn.imp_of_mem fun {k k'} _ _ hne a ha b hb e => hne ?_
        subst e
        obtain ⟨x, hx, ha⟩ := List.mem_flatMap.1 ha
        obtain ⟨y, hy, hb⟩ := List.mem_flatMap.1 hb
        have := siblings o (child k x hx).1 (child k' y hy).1 (child k x hx).2 (child k' y hy).2 (above_of_tree i ha) (above_of_tree i hb)
        have h1 := (i.items _ _ _ hx).2.1
        have h2 := (i.items _ _ _ hy).2.1
        rw [this, h2] at h1
        cases h1; rfl

theorem destroyItems_spec {w : World} {d : World → Ptr → World × List Ptr × Res Unit} {f : Ptr → List Ptr} (its : List Item)
    (hd : ∀ x ∈ its, ∀ w' : World, w'.cont = w.cont → (∀ q ∈ f x.ptr, w'.kind q = w.kind q) →
      d w' x.ptr = (kill w' (f x.ptr), f x.ptr, .val ()))
    (hn : (its.flatMap fun x => f x.ptr).Nodup) (w' : World) (hc : w'.cont = w.cont)
    (hk : ∀ q ∈ its.flatMap fun x => f x.ptr, w'.kind q = w.kind q) :
    destroyItems d w' its = (kill w' (its.flatMap fun x => f x.ptr), its.flatMap fun x => f x.ptr, .val ()) := by
  induction its generalizing w' with
  | nil => simp [destroyItems, kill_nil]
  | cons x its ih =>
    simp only [List.flatMap_cons, List.nodup_append, List.mem_append] at hn hk ⊢
    rw [destroyItems, hd x (List.mem_cons_self ..) w' hc fun q hq => hk q (.inl hq)]
    simp only
    rw [ih (fun y hy => hd y (List.mem_cons_of_mem _ hy)) hn.2.1 (kill w' (f x.ptr)) hc, kill_kill]
    intro q hq
    have : q ∉ f x.ptr := fun h => hn.2.2 q h q hq rfl
    simp only [kill, this, if_false]
    exact hk q (.inr hq)

theorem destroyLists_spec {w : World} {d : World → Ptr → World × List Ptr × Res Unit} {f : Ptr → List Ptr} (p : Ptr) (ks : List Cat)
    (hd : ∀ k, ∀ x ∈ (w.cont p k).items, ∀ w' : World, w'.cont = w.cont → (∀ q ∈ f x.ptr, w'.kind q = w.kind q) →
      d w' x.ptr = (kill w' (f x.ptr), f x.ptr, .val ()))
    (hn : (ks.flatMap fun k => (w.cont p k).items.flatMap fun x => f x.ptr).Nodup) (w' : World) (hc : w'.cont = w.cont)
    (hk : ∀ q ∈ ks.flatMap fun k => (w.cont p k).items.flatMap fun x => f x.ptr, w'.kind q = w.kind q) :
    destroyLists d p w' ks = (kill w' (ks.flatMap fun k => (w.cont p k).items.flatMap fun x => f x.ptr),
      ks.flatMap fun k => (w.cont p k).items.flatMap fun x => f x.ptr, .val ()) := by
  induction ks generalizing w' with
  | nil => simp [destroyLists, kill_nil]
  | cons k ks ih =>
    simp only [List.flatMap_cons, List.nodup_append, List.mem_append] at hn hk ⊢
    rw [destroyLists, hc, destroyItems_spec (w := w) _ (hd k) hn.1 w' hc fun q hq => hk q (.inl hq)]
    simp only
    rw [ih hn.2.1 (kill w' _) hc, kill_kill]
    intro q hq
    have : q ∉ (w.cont p k).items.flatMap fun x => f x.ptr := fun h => hn.2.2 q h q hq rfl
    simp only [kill, this, if_false]
    exact hk q (.inr hq)

theorem destroyF_spec {rank : TypeId → Nat} {w : World} (i : World.Inv rank w) (o : OwnerLt w) (n : Nat) (p : Ptr)
    (hp : (w.kind p).isSome = true) (hf : w.next < n + p) (w' : World) (hc : w'.cont = w.cont)
    (hk : ∀ q ∈ tree w n p, w'.kind q = w.kind q) :
    destroyF n w' p = (kill w' (tree w n p), tree w n p, .val ()) := by
  induction n generalizing p w' with
  | zero =>
    obtain ⟨k, h⟩ := Option.isSome_iff_exists.1 hp
    have := i.kind_lt p k h
    omega
  | succ n ih =>
    obtain ⟨k, h⟩ := Option.isSome_iff_exists.1 hp
    have hn := tree_nodup i o (n + 1) p hp
    rw [tree] at hn hk ⊢
    have e : w'.kind p = some k := by rw [hk p (List.mem_cons_self ..), h]
    rw [destroyF, e]
    simp only
    have step : ∀ k, ∀ x ∈ (w.cont p k).items, ∀ w' : World, w'.cont = w.cont → (∀ q ∈ tree w n x.ptr, w'.kind q = w.kind q) →
        destroyF n w' x.ptr = (kill w' (tree w n x.ptr), tree w n x.ptr, .val ()) := by
      intro k x hx w' hc hk
      have h1 := i.items _ _ _ hx
      refine ih x.ptr (by rw [h1.2.1]; rfl) ?_ w' hc hk
      by_cases h2 : x.ptr = 1
      · have := h1.2.2.2; rw [h2, o.1] at this; cases this
      · obtain ⟨c', _, h3, h4, _⟩ := o.2 _ _ h1.2.1 h2
        rw [h1.2.2.2] at h3; cases h3; omega
    split
    · rw [destroyLists_spec (w := w) p order step (List.nodup_cons.1 hn).2 (w'.free p) hc, free_eq, kill_kill]
      · rfl
      · intro q hq
        have : q ≠ p := fun h => (List.nodup_cons.1 hn).1 (h ▸ hq)
        simp only [World.free, upd_ne _ _ this]
        exact hk q (List.mem_cons_of_mem _ hq)
    · rename_i hcat
      have : (order.flatMap fun k => (w.cont p k).items.flatMap fun x => tree w n x.ptr) = [] := by
        simp only [List.flatMap_eq_nil_iff]
        intro k' _ x hx
        have := (i.items _ _ _ hx).1
        rw [isContainer_iff, h] at this
        rcases this with h | h <;> cases h <;> simp at hcat
      rw [this, free_eq]

theorem tree_child {rank : TypeId → Nat} {w : World} (i : World.Inv rank w) (o : OwnerLt w) {n : Nat} {p c : Ptr} {k : Cat} {x : Item}
    (hp : (w.kind p).isSome = true) (hf : w.next < n + p) (hc : c ∈ tree w n p) (hx : x ∈ (w.cont c k).items) : x.ptr ∈ tree w n p := by
  have childLt : ∀ p k x, x ∈ (w.cont p k).items → (w.kind x.ptr).isSome = true ∧ p < x.ptr ∧ x.ptr < w.next := by
    intro p k x hx
    have h1 := i.items _ _ _ hx
    have h5 := i.kind_lt _ _ h1.2.1
    by_cases h2 : x.ptr = 1
    · have := h1.2.2.2; rw [h2, o.1] at this; cases this
    · obtain ⟨c', _, h3, h4, _⟩ := o.2 _ _ h1.2.1 h2
      rw [h1.2.2.2] at h3; cases h3
      exact ⟨by rw [h1.2.1]; rfl, h4, h5.2⟩
  induction n generalizing p with
  | zero => cases hc
  | succ n ih =>
    simp only [tree, List.mem_cons, List.mem_flatMap] at hc ⊢
    right
    rcases hc with rfl | ⟨k', _, y, hy, hc⟩
    · refine ⟨k, mem_order k, x, hx, ?_⟩
      have := childLt _ _ _ hx
      cases n with
      | zero => omega
      | succ n => exact List.mem_cons_self ..
    · have := childLt _ _ _ hy
      exact ⟨k', mem_order k', y, hy, ih this.1 (by omega) hc⟩

theorem mem_tree {rank : TypeId → Nat} {w : World} (i : World.Inv rank w) (o : OwnerLt w) {n : Nat} (hf : w.next < n + 1) (q : Ptr) :
    q ∈ tree w n 1 ↔ (w.kind q).isSome = true := by
  have h1 : (w.kind 1).isSome = true := by rw [i.glob]; rfl
  refine ⟨live_of_tree i h1, ?_⟩
  induction q using Nat.strongRecOn with
  | ind q ih =>
    intro hq
    obtain ⟨k, hk⟩ := Option.isSome_iff_exists.1 hq
    by_cases e : q = 1
    · subst e
      cases n with
      | zero => have := i.next_ge; omega
      | succ n => exact List.mem_cons_self ..
    · obtain ⟨c, h2, h3⟩ := i.owned q k hk e
      obtain ⟨c', k', h4, h5, h6⟩ := o.2 q k hk e
      rw [h2] at h4; cases h4
      exact tree_child i o h1 hf (ih c h5 (by rw [h6]; rfl)) h3

/-- what is below an object is destroyed in one piece -/
theorem tree_part {rank : TypeId → Nat} {w : World} (i : World.Inv rank w) (o : OwnerLt w) {n : Nat} {p c : Ptr} (hf : w.next < n + p)
    (hc : c ∈ tree w n p) : ∃ a m b, tree w n p = a ++ tree w m c ++ b ∧ w.next < m + c := by
  induction n generalizing p with
  | zero => cases hc
  | succ n ih =>
    by_cases e : c = p
    · subst e
      exact ⟨[], n + 1, [], by simp, hf⟩
    · simp only [tree, List.mem_cons, e, false_or, List.mem_flatMap] at hc
      obtain ⟨k, hk, x, hx, hq⟩ := hc
      have h1 := i.items _ _ _ hx
      have lt : p < x.ptr := by
        by_cases h2 : x.ptr = 1
        · have := h1.2.2.2; rw [h2, o.1] at this; cases this
        · obtain ⟨c', _, h3, h4, _⟩ := o.2 _ _ h1.2.1 h2
          rw [h1.2.2.2] at h3; cases h3; exact h4
      obtain ⟨a, m, b, e1, e2⟩ := ih (by omega) hq
      obtain ⟨o1, o2, eo⟩ := List.append_of_mem hk
      obtain ⟨i1, i2, ei⟩ := List.append_of_mem hx
      refine ⟨p :: (o1.flatMap (fun k => (w.cont p k).items.flatMap fun x => tree w n x.ptr) ++
        (i1.flatMap (fun x => tree w n x.ptr) ++ a)), m,
        b ++ i2.flatMap (fun x => tree w n x.ptr) ++ o2.flatMap (fun k => (w.cont p k).items.flatMap fun x => tree w n x.ptr), ?_, e2⟩
      rw [tree, eo]
      simp only [List.flatMap_append, List.flatMap_cons, ei, e1, List.append_assoc, List.cons_append]

theorem head_tree {w : World} {m : Nat} {c : Ptr} (h : 0 < m) : [c].Sublist (tree w m c) := by
  cases m with
  | zero => omega
  | succ m => exact List.cons_sublist_cons.2 (List.nil_sublist _)

/-- the members of an object are destroyed list after list, and from first to last in each -/
theorem tree_order {rank : TypeId → Nat} {w : World} (i : World.Inv rank w) (o : OwnerLt w) {m : Nat} {c : Ptr} (hf : w.next < m + c) :
    (∀ k, ∀ x ∈ (w.cont c k).items, [c, x.ptr].Sublist (tree w m c)) ∧
    (∀ k x y, [x, y].Sublist (w.cont c k).items → [x.ptr, y.ptr].Sublist (tree w m c)) ∧
    (∀ k k' x y, [k, k'].Sublist order → x ∈ (w.cont c k).items → y ∈ (w.cont c k').items → [x.ptr, y.ptr].Sublist (tree w m c)) := by
  have lt : ∀ k x, x ∈ (w.cont c k).items → c < x.ptr ∧ x.ptr < w.next := by
    intro k x hx
    have h1 := i.items _ _ _ hx
    by_cases h2 : x.ptr = 1
    · have := h1.2.2.2; rw [h2, o.1] at this; cases this
    · obtain ⟨c', _, h3, h4, _⟩ := o.2 _ _ h1.2.1 h2
      rw [h1.2.2.2] at h3; cases h3; exact ⟨h4, (i.kind_lt _ _ h1.2.1).2⟩
  have flat : ∀ {A B : Type} (f : A → List B) {l l' : List A}, l.Sublist l' → (l.flatMap f).Sublist (l'.flatMap f) := by
    intro A B f l l' h
    induction h with
    | slnil => exact List.Sublist.slnil
    | cons a _ ih => rw [List.flatMap_cons]; exact ih.trans (List.sublist_append_right _ _)
    | cons_cons a _ ih => rw [List.flatMap_cons, List.flatMap_cons]; exact List.Sublist.append (List.Sublist.refl _) ih
  cases m with
  | zero =>
    refine ⟨fun k x hx => ?_, fun k x y hx => ?_, fun k k' x y _ hx _ => ?_⟩
    · have := lt k x hx; omega
    · have := lt k x (hx.subset (by simp)); omega
    · have := lt k x hx; omega
  | succ m =>
    have pos : ∀ k x, x ∈ (w.cont c k).items → [x.ptr].Sublist (tree w m x.ptr) := by
      intro k x hx
      have := lt k x hx
      exact head_tree (by omega)
    have one : ∀ k x, x ∈ (w.cont c k).items → [x.ptr].Sublist ((w.cont c k).items.flatMap fun x => tree w m x.ptr) := by
      intro k x hx
      have := flat (fun x : Item => tree w m x.ptr) (List.singleton_sublist.2 hx)
      rw [List.flatMap_cons, List.flatMap_nil, List.append_nil] at this
      exact (pos k x hx).trans this
    refine ⟨fun k x hx => ?_, fun k x y hx => ?_, fun k k' x y hk hx hy => ?_⟩
    · rw [tree]
      refine List.cons_sublist_cons.2 ((one k x hx).trans ?_)
      have := flat (fun k => (w.cont c k).items.flatMap fun x => tree w m x.ptr) (List.singleton_sublist.2 (mem_order k))
      rwa [List.flatMap_cons, List.flatMap_nil, List.append_nil] at this
    · rw [tree]
      refine List.Sublist.cons _ ?_
      have h1 := flat (fun k => (w.cont c k).items.flatMap fun x => tree w m x.ptr) (List.singleton_sublist.2 (mem_order k))
      rw [List.flatMap_cons, List.flatMap_nil, List.append_nil] at h1
      refine List.Sublist.trans ?_ h1
      have h2 := flat (fun x : Item => tree w m x.ptr) hx
      rw [List.flatMap_cons, List.flatMap_cons, List.flatMap_nil, List.append_nil] at h2
      exact (List.Sublist.append (pos k x (hx.subset (by simp))) (pos k y (hx.subset (by simp)))).trans h2
    · rw [tree]
      refine List.Sublist.cons _ ?_
      have h1 := flat (fun k => (w.cont c k).items.flatMap fun x => tree w m x.ptr) hk
      rw [List.flatMap_cons, List.flatMap_cons, List.flatMap_nil, List.append_nil] at h1
      exact (List.Sublist.append (one k x hx) (one k' y hy)).trans h1

end Rtti.Shutdown
