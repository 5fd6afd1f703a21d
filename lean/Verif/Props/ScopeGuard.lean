import Verif.Model.ScopeGuard
/-! C69: what a scope guard holds is run once when its block is left. -/
set_option autoImplicit false
namespace Rtti.Props
open Rtti.Guard

/-- the statements that are reached -/
def reached (ss : List Stmt) : List Stmt := ss.takeWhile (fun s => s ≠ .throw)

/-- the guards a block makes, in order -/
def made (ss : List Stmt) : List Nat := ss.filterMap fun | .guard f => some f | .move _ g => some g | _ => none
/-- its other effects -/
def acts (ss : List Stmt) : List Ev := ss.filterMap fun | .act n => some (.act n) | _ => none

/-- What the guard `n` runs, read back from the last statement to the first: that of the guard it was moved from, or its
    own. -/
def origin : List Stmt → Nat → Nat
  | [], n => n
  | .move m k :: past, n => if k = n then origin past m else origin past n
  | _ :: past, n => origin past n

/-- Whether the guard `n` is dismissed, read back likewise: it was, or the one it was moved from already was. -/
def gone : List Stmt → Nat → Bool
  | [], _ => false
  | .dismiss m :: past, n => m = n || gone past n
  | .move m k :: past, n => if k = n then gone past m else gone past n
  | .guard k :: past, n => if k = n then false else gone past n
  | _ :: past, n => gone past n

/-- the block compiles: no two guards have one name, and one is moved only after it is made -/
def Compiles : List Stmt → List Nat → Prop
  | [], _ => True
  | .guard f :: ss, names => f ∉ names ∧ Compiles ss (f :: names)
  | .move f g :: ss, names => f ∈ names ∧ g ∉ names ∧ Compiles ss (g :: names)
  | .dismiss f :: ss, names => f ∈ names ∧ Compiles ss names
  | _ :: ss, names => Compiles ss names

instance instDecidableCompiles : ∀ (ss : List Stmt) (names : List Nat), Decidable (Compiles ss names)
  | [], _ => isTrue trivial
  | .guard f :: ss, names => by
    unfold Compiles; exact @instDecidableAnd _ _ _ (instDecidableCompiles ss (f :: names))
  | .move f g :: ss, names => by
    unfold Compiles
    exact @instDecidableAnd _ _ _ (@instDecidableAnd _ _ _ (instDecidableCompiles ss (g :: names)))
  | .dismiss f :: ss, names => by
    unfold Compiles; exact @instDecidableAnd _ _ _ (instDecidableCompiles ss names)
  | .act _ :: ss, names => by unfold Compiles; exact instDecidableCompiles ss names
  | .throw :: ss, names => by unfold Compiles; exact instDecidableCompiles ss names

private theorem destroy_all (gs : List G) :
    gs.flatMap destroy = ((gs.filter (fun g => !g.dismissed)).map G.fn).map Ev.ran := by
  induction gs with
  | nil => rfl
  | cons g gs ih => cases h : g.dismissed <;> simp [List.flatMap_cons, destroy, h, ih]

/-- the guards there are after the statements `past`, the last of them first -/
private def guards (past : List Stmt) : List G :=
  (made past).map fun n => ⟨n, origin past n, gone past n⟩

private theorem guards_find (past : List Stmt) (f : Nat) (h : f ∈ made past) :
    (guards past).find? (fun x => x.name = f) = some ⟨f, origin past f, gone past f⟩ := by
  unfold guards
  generalize made past = l at h
  induction l with
  | nil => exact absurd h (by simp)
  | cons a l ih =>
    by_cases e : a = f
    · simp [e]
    · rcases List.mem_cons.1 h with h | h
      · exact absurd h.symm e
      · simpa [List.find?_cons, e] using ih h

private theorem block_end (past : List Stmt) :
    (guards past).flatMap destroy = ((made past).filter (fun n => !gone past n)).map (fun n => Ev.ran (origin past n)) := by
  rw [destroy_all]
  unfold guards
  generalize made past = l
  induction l with
  | nil => rfl
  | cons a l ih => cases h : gone past a <;> simp [h] at ih ⊢ <;> exact ih

private theorem block_eq (ss : List Stmt) : ∀ past, Compiles ss (made past) →
    block ss (guards past) = acts (reached ss) ++
      ((made ((reached ss).reverse ++ past)).filter (fun n => !gone ((reached ss).reverse ++ past) n)).map
        (fun n => .ran (origin ((reached ss).reverse ++ past) n)) := by
  induction ss with
  | nil => intro past _; simpa [block, reached, acts] using block_end past
  | cons s ss ih =>
    intro past hc
    cases s with
    | throw => simpa [block, reached, acts] using block_end past
    | act n =>
      have := ih (.act n :: past) hc
      have hg : guards (.act n :: past) = guards past := rfl
      rw [hg] at this
      simp [block, this, reached, acts]
    | guard f =>
      have hc' : f ∉ made past ∧ Compiles ss (f :: made past) := hc
      have := ih (.guard f :: past) hc'.2
      have hne : ∀ n ∈ made past, f ≠ n := fun n hn e => hc'.1 (e ▸ hn)
      have ho : origin past f = f := by
        have : ∀ past : List Stmt, f ∉ made past → origin past f = f := by
          intro past
          induction past with
          | nil => intro _; rfl
          | cons s past ih =>
            intro h
            cases s with
            | move m k =>
              have h' : f ∉ k :: made past := h
              simp only [List.mem_cons, not_or] at h'
              have hk : k ≠ f := fun e => h'.1 e.symm
              simp [origin, hk, ih h'.2]
            | guard k =>
              have h' : f ∉ k :: made past := h
              simp only [List.mem_cons, not_or] at h'
              simp [origin, ih h'.2]
            | _ => exact ih h
        exact this past hc'.1
      have hg : guards (.guard f :: past) = ⟨f, f, false⟩ :: guards past := by
        have hm : made (.guard f :: past) = f :: made past := rfl
        unfold guards
        rw [hm, List.map_cons]
        congr 1
        · simp [origin, gone, ho]
        · exact List.map_congr_left fun n hn => by simp [origin, gone, hne n hn]
      rw [hg] at this
      simp [block, this, reached, acts]
    | dismiss f =>
      have hc' : f ∈ made past ∧ Compiles ss (made past) := hc
      have := ih (.dismiss f :: past) hc'.2
      have hg : guards (.dismiss f :: past) = (guards past).map (dismiss f) := by
        have hm : made (.dismiss f :: past) = made past := rfl
        unfold guards
        rw [hm, List.map_map]
        refine List.map_congr_left fun n _ => ?_
        by_cases e : n = f
        · subst e; simp [origin, gone, dismiss]
        · have e' : f ≠ n := fun h => e h.symm
          simp [origin, gone, dismiss, e, e']
      rw [hg] at this
      simp [block, this, reached, acts]
    | move f g =>
      have hc' : f ∈ made past ∧ g ∉ made past ∧ Compiles ss (g :: made past) := hc
      have := ih (.move f g :: past) hc'.2.2
      have hne : ∀ n ∈ made past, g ≠ n := fun n hn e => hc'.2.1 (e ▸ hn)
      have hg : guards (.move f g :: past) = ⟨g, origin past f, gone past f⟩ :: guards past := by
        have hm : made (.move f g :: past) = g :: made past := rfl
        unfold guards
        rw [hm, List.map_cons]
        congr 1
        · simp [origin, gone]
        · exact List.map_congr_left fun n hn => by simp [origin, gone, hne n hn]
      rw [hg] at this
      simp [block, guards_find past f hc'.1, this, reached, acts]

/-- What a block does, moves included: all else that is reached, then the guards made and not dismissed, the youngest first,
    each running what the guard it came from was made with. -/
theorem C69_exact (ss : List Stmt) (hc : Compiles ss []) :
    block ss [] = acts (reached ss) ++
      ((made (reached ss)).reverse.filter (fun n => !gone (reached ss).reverse n)).map
        (fun n => .ran (origin (reached ss).reverse n)) := by
  have h := block_eq ss [] hc
  have hr : made (reached ss).reverse = (made (reached ss)).reverse := by
    unfold made; rw [List.filterMap_reverse]
  simpa [guards, made, hr] using h

private theorem origin_unmoved (past : List Stmt) (hm : ∀ f g, .move f g ∉ past) (n : Nat) : origin past n = n := by
  induction past with
  | nil => rfl
  | cons s past ih =>
    have ih := ih fun f g h => hm f g (List.mem_cons_of_mem _ h)
    cases s with
    | move f g => exact absurd (List.mem_cons_self ..) (hm f g)
    | _ => exact ih

private theorem compiles_append (a b : List Stmt) : ∀ names, Compiles (a ++ b) names →
    Compiles a names ∧ Compiles b ((made a).reverse ++ names) := by
  induction a with
  | nil => intro names h; exact ⟨trivial, h⟩
  | cons s a ih =>
    intro names h
    cases s with
    | guard f =>
      obtain ⟨h1, h2⟩ := (h : f ∉ names ∧ Compiles (a ++ b) (f :: names))
      exact ⟨⟨h1, (ih _ h2).1⟩, by simpa [made] using (ih _ h2).2⟩
    | move f g =>
      obtain ⟨h1, h2, h3⟩ := (h : f ∈ names ∧ g ∉ names ∧ Compiles (a ++ b) (g :: names))
      exact ⟨⟨h1, h2, (ih _ h3).1⟩, by simpa [made] using (ih _ h3).2⟩
    | dismiss f =>
      obtain ⟨h1, h2⟩ := (h : f ∈ names ∧ Compiles (a ++ b) names)
      exact ⟨⟨h1, (ih _ h2).1⟩, by simpa [made] using (ih _ h2).2⟩
    | act n => exact ⟨(ih _ h).1, by simpa [made] using (ih _ h).2⟩
    | throw => exact ⟨(ih _ h).1, by simpa [made] using (ih _ h).2⟩

private theorem compiles_nodup (ss : List Stmt) : ∀ names, Compiles ss names → names.Nodup →
    ((made ss).reverse ++ names).Nodup := by
  induction ss with
  | nil => intro names _ h; simpa [made] using h
  | cons s ss ih =>
    intro names h hn
    cases s with
    | guard f =>
      obtain ⟨h1, h2⟩ := (h : f ∉ names ∧ Compiles ss (f :: names))
      simpa [made] using ih _ h2 (List.nodup_cons.2 ⟨h1, hn⟩)
    | move f g =>
      obtain ⟨_, h2, h3⟩ := (h : f ∈ names ∧ g ∉ names ∧ Compiles ss (g :: names))
      simpa [made] using ih _ h3 (List.nodup_cons.2 ⟨h2, hn⟩)
    | dismiss f => simpa [made] using ih _ (h : f ∈ names ∧ Compiles ss names).2 hn
    | act n => simpa [made] using ih _ h hn
    | throw => simpa [made] using ih _ h hn

private theorem gone_unmoved (ss : List Stmt) : ∀ past, Compiles ss (made past) → (∀ f g, .move f g ∉ ss) → ∀ n,
    n ∈ made ss ∨ n ∈ made past → (gone (ss.reverse ++ past) n = (decide (.dismiss n ∈ ss) || gone past n && decide (n ∈ made past))) := by
  induction ss with
  | nil => intro past _ _ n h; rcases h with h | h <;> simp_all [made]
  | cons s ss ih =>
    intro past hc hm n hn
    have hm' : ∀ f g, .move f g ∉ ss := fun f g h => hm f g (List.mem_cons_of_mem _ h)
    cases s with
    | move f g => exact absurd (List.mem_cons_self ..) (hm f g)
    | act k =>
      have := ih (.act k :: past) hc hm' n (by simpa [made] using hn)
      have e : made (.act k :: past) = made past := rfl
      rw [e] at this
      simpa [gone] using this
    | throw =>
      have := ih (.throw :: past) hc hm' n (by simpa [made] using hn)
      have e : made (.throw :: past) = made past := rfl
      rw [e] at this
      simpa [gone] using this
    | guard k =>
      obtain ⟨h1, h2⟩ := (hc : k ∉ made past ∧ Compiles ss (k :: made past))
      have hn' : n ∈ made ss ∨ n ∈ made (.guard k :: past) := by
        have e : made (.guard k :: ss) = k :: made ss := rfl
        have e' : made (.guard k :: past) = k :: made past := rfl
        rw [e] at hn; rw [e']
        simp only [List.mem_cons] at hn ⊢
        rcases hn with (h | h) | h <;> simp [h]
      have := ih (.guard k :: past) h2 hm' n hn'
      have e : made (.guard k :: past) = k :: made past := rfl
      rw [e] at this
      rw [List.reverse_cons, List.append_assoc]
      refine this.trans ?_
      by_cases hk : k = n
      · subst hk; simp [gone, h1]
      · have : n ≠ k := fun e => hk e.symm
        simp [gone, hk, this]
    | dismiss k =>
      obtain ⟨h1, h2⟩ := (hc : k ∈ made past ∧ Compiles ss (made past))
      have := ih (.dismiss k :: past) h2 hm' n (by simpa [made] using hn)
      have e : made (.dismiss k :: past) = made past := rfl
      rw [e] at this
      rw [List.reverse_cons, List.append_assoc]
      refine this.trans ?_
      by_cases hk : k = n
      · subst hk; simp [gone, h1]
      · have : n ≠ k := fun e => hk e.symm
        simp [gone, hk, this]

/-- The guards made before the block is left, less those dismissed, run after everything else in it, the youngest first:
    whether it ends or throws. -/
theorem C69_order_partial (ss : List Stmt) (hc : Compiles ss []) (hm : ∀ f g, .move f g ∉ ss) :
    block ss [] = acts (reached ss) ++ ((made (reached ss)).reverse.filter (fun f => .dismiss f ∉ reached ss)).map .ran := by
  have hsub := (List.takeWhile_sublist (l := ss) (fun s => decide (s ≠ Stmt.throw))).subset
  have hm' : ∀ f g, .move f g ∉ reached ss := fun f g h => hm f g (hsub h)
  have hc' : Compiles (reached ss) (made []) := by
    have : reached ss ++ ss.dropWhile (fun s => s ≠ .throw) = ss := List.takeWhile_append_dropWhile
    rw [← this] at hc
    exact (compiles_append _ _ _ hc).1
  rw [C69_exact ss hc]
  congr 1
  have hf : (made (reached ss)).reverse.filter (fun n => !gone (reached ss).reverse n) =
      (made (reached ss)).reverse.filter (fun f => .dismiss f ∉ reached ss) := by
    refine List.filter_congr fun n hn => ?_
    have := gone_unmoved (reached ss) [] hc' hm' n (Or.inl (List.mem_reverse.1 hn))
    simp only [List.append_nil] at this
    rw [this]; simp [gone]
  rw [hf]
  refine List.map_congr_left fun n _ => ?_
  rw [origin_unmoved _ fun f g h => hm' f g (List.mem_reverse.1 h)]

/-- Each runs once, those dismissed or never made not at all. -/
theorem C69_once_partial (ss : List Stmt) (hc : Compiles ss []) (hm : ∀ f g, .move f g ∉ ss) (f : Nat) :
    (block ss []).count (.ran f) = if .guard f ∈ reached ss ∧ .dismiss f ∉ reached ss then 1 else 0 := by
  have hsub : (made (reached ss)).Nodup := by
    have := compiles_nodup ss [] hc List.nodup_nil
    rw [List.append_nil] at this
    exact ((List.reverse_perm _).nodup_iff.1 this).sublist ((List.takeWhile_sublist _).filterMap _)
  have hmem : f ∈ made (reached ss) ↔ .guard f ∈ reached ss := by
    constructor
    · intro h
      obtain ⟨s, h1, h2⟩ := List.mem_filterMap.1 h
      cases s with
      | move a b => exact absurd ((List.takeWhile_sublist _).subset h1) (hm a b)
      | guard a => simp at h2; exact h2 ▸ h1
      | _ => simp at h2
    · exact fun h => List.mem_filterMap.2 ⟨_, h, rfl⟩
  have hact : (acts (reached ss)).count (.ran f) = 0 := by
    rw [List.count_eq_zero]
    intro h
    obtain ⟨s, _, h2⟩ := List.mem_filterMap.1 h
    cases s <;> simp at h2
  rw [C69_order_partial ss hc hm, List.count_append, hact, Nat.zero_add]
  have hinj : ∀ l : List Nat, (l.map Ev.ran).count (.ran f) = l.count f := by
    intro l
    induction l with
    | nil => rfl
    | cons a l ih => simp [List.count_cons, ih]
  rw [hinj]
  split
  · next h =>
    have hf : f ∈ (made (reached ss)).reverse.filter (fun f => .dismiss f ∉ reached ss) := by
      simpa using ⟨hmem.2 h.1, h.2⟩
    have hnd : ((made (reached ss)).reverse.filter (fun f => .dismiss f ∉ reached ss)).Nodup :=
      ((List.reverse_perm _).nodup_iff.2 hsub).sublist List.filter_sublist
    exact Nat.le_antisymm (List.nodup_iff_count.1 hnd f) (List.count_pos_iff.2 hf)
  · next h =>
    rw [List.count_eq_zero]
    intro hf
    rw [List.mem_filter, List.mem_reverse, hmem] at hf
    exact h ⟨hf.1, by simpa using hf.2⟩

/-- A guard that is moved runs its function twice: the move does not dismiss the old one. -/
theorem C69_moved_false : block [.guard 0, .move 0 1, .act 5] [] = [.act 5, .ran 0, .ran 0] := rfl

/-- Once more for each move, in general: in a block that dismisses nothing and is not left early, what a guard was made
    with runs as often as there are guards that came from it. -/
theorem C69_moved (ss : List Stmt) (hc : Compiles ss []) (ht : .throw ∉ ss) (hd : ∀ f, .dismiss f ∉ ss) (f : Nat) :
    (block ss []).count (.ran f) = ((made ss).filter (fun n => origin ss.reverse n = f)).length := by
  have hr : reached ss = ss := by
    unfold reached
    clear hc hd
    induction ss with
    | nil => rfl
    | cons s ss ih =>
      have h1 : s ≠ .throw := fun e => ht (e ▸ List.mem_cons_self ..)
      rw [List.takeWhile_cons, if_pos (by simpa using h1), ih fun h => ht (List.mem_cons_of_mem _ h)]
  have hg : ∀ past : List Stmt, (∀ f, .dismiss f ∉ past) → ∀ n, gone past n = false := by
    intro past
    induction past with
    | nil => intro _ _; rfl
    | cons s past ih =>
      intro h n
      have ih := ih fun f h' => h f (List.mem_cons_of_mem _ h')
      cases s with
      | dismiss m => exact absurd (List.mem_cons_self ..) (h m)
      | _ => simp [gone, ih]
  have hact : (acts ss).count (.ran f) = 0 := by
    rw [List.count_eq_zero]
    intro h
    obtain ⟨s, _, h2⟩ := List.mem_filterMap.1 h
    cases s <;> simp at h2
  have hc1 := C69_exact ss hc
  rw [hr] at hc1
  rw [hc1, List.count_append, hact, Nat.zero_add]
  have he : (made ss).reverse.filter (fun n => !gone ss.reverse n) = (made ss).reverse := by
    rw [List.filter_eq_self]
    intro n _
    simp [hg ss.reverse (fun f h => hd f (List.mem_reverse.1 h)) n]
  rw [he]
  generalize origin ss.reverse = o
  generalize made ss = l
  rw [List.count, List.countP_map, List.countP_reverse, List.countP_eq_length_filter]
  congr 1
  refine List.filter_congr fun n _ => ?_
  by_cases e : o n = f <;> simp [e]

private def guardEx : List Stmt := [.guard 0, .act 1, .guard 2, .guard 3, .dismiss 2, .act 4, .throw, .act 9, .guard 7]
example : Compiles guardEx [] := by decide
example : ∀ f g, .move f g ∉ guardEx := by simp [guardEx]
example : block guardEx [] = [.act 1, .act 4, .ran 3, .ran 0] := rfl
private def movedEx : List Stmt := [.guard 0, .move 0 1, .dismiss 0, .act 5, .move 1 2, .move 0 3, .guard 4]
example : Compiles movedEx [] := by decide
example : block movedEx [] = [.act 5, .ran 4, .ran 0, .ran 0] := rfl
example : Compiles [.guard 0, .move 0 1, .guard 5, .move 1 2] [] := by decide

end Rtti.Props
