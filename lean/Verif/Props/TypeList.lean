import Verif.Model.TypeList
/-
C54: the type-list templates compute the list functions they name (core `List` functions are the
specification).
-/
set_option autoImplicit false
set_option linter.unusedSectionVars false
namespace Rtti.Props
open Mpl

section
variable {α : Type} [DecidableEq α]

theorem C54_size (l : List α) : size l = l.length ∧ (isEmpty l = true ↔ l = []) := by
  have h : ∀ l : List α, size l = l.length := by
    intro l; induction l with
    | nil => rfl
    | cons a l ih => simp [size, ih]
  exact ⟨h l, by simp [isEmpty, h]⟩

theorem C54_ends (l : List α) : first l = l.head? ∧ last l = l.getLast? ∧ popFront l = (if l = [] then none else some l.tail) ∧
    popBack l = (if l = [] then none else some l.dropLast) := by
  have h1 : ∀ l : List α, last l = l.getLast? := by
    intro l
    induction l with
    | nil => rfl
    | cons a l ih =>
      cases l with
      | nil => rfl
      | cons b l => rw [List.getLast?_cons_cons, ← ih]; rfl
  have h2 : ∀ (l p : List α), l ≠ [] → popBackFrom p l = some (p ++ l.dropLast) := by
    intro l
    induction l with
    | nil => intro p h; exact absurd rfl h
    | cons a l ih =>
      intro p _
      cases l with
      | nil => simp [popBackFrom]
      | cons b l =>
        rw [popBackFrom, ih _ (by simp)]
        · simp
        · simp
  refine ⟨by cases l <;> rfl, h1 l, by cases l <;> simp [popFront], ?_⟩
  cases l with
  | nil => rfl
  | cons a l => rw [popBack, h2 _ _ (by simp)]; simp

theorem C54_get (l : List α) (i : Nat) : Mpl.get l i = l[i]? := by
  induction l generalizing i with
  | nil => rfl
  | cons a l ih => cases i with
    | zero => rfl
    | succ i => simp [Mpl.get, ih]

/-- concatenation and pushing, observed through `size` and `get` -/
theorem C54_concat_push (a b : List α) (i : Nat) :
    size (concat a b) = size a + size b ∧
    Mpl.get (concat a b) i = (if i < size a then Mpl.get a i else Mpl.get b (i - size a)) ∧
    Mpl.get (pushFront a b) i = (if i < size b then Mpl.get b i else Mpl.get a (i - size b)) ∧
    Mpl.get (pushBack a b) i = (if i < size a then Mpl.get a i else Mpl.get b (i - size a)) := by
  simp only [C54_get, (C54_size _).1, concat, pushFront, pushBack, List.length_append, true_and]
  refine ⟨?_, ?_, ?_⟩ <;> rw [List.getElem?_append]

theorem indexOfFrom_eq (v : α) (l : List α) (i : Nat) :
    indexOfFrom v l i = match l.idxOf? v with | some k => ((i + k : Nat) : Int) | none => -1 := by
  induction l generalizing i with
  | nil => rfl
  | cons a l ih =>
    simp only [indexOfFrom, List.idxOf?_cons]
    by_cases h : a = v
    · simp [h]
    · rw [if_neg h]
      have := ih (i + 1)
      rw [show ((i : Int) + 1) = ((i + 1 : Nat) : Int) by simp, this]
      simp only [beq_iff_eq, h, if_false]
      cases l.idxOf? v with
      | none => rfl
      | some k => simp only [Option.map_some]; congr 1; omega

/-- index of the first occurrence, -1 if there is none; `exists` is membership -/
theorem C54_index (l : List α) (v : α) : indexOf l v = (match l.idxOf? v with | some k => (k : Int) | none => -1) ∧
    (exist l v = true ↔ v ∈ l) := by
  have h := indexOfFrom_eq v l 0
  simp only [Nat.zero_add] at h
  have h' : indexOf l v = (match l.idxOf? v with | some k => (k : Int) | none => -1) := h
  refine ⟨h', ?_⟩
  simp only [exist, h', decide_eq_true_eq]
  cases e : l.idxOf? v with
  | none =>
    rw [List.idxOf?_eq_none_iff] at e
    simp [e]
  | some k =>
    have : v ∈ l := by
      rcases Classical.em (v ∈ l) with h | h
      · exact h
      · rw [List.idxOf?_eq_none_iff.2 h] at e; cases e
    simp [this]

theorem exist_iff (l : List α) (v : α) : exist l v = true ↔ v ∈ l := (C54_index l v).2

/-- `remove` deletes the first occurrence, `removeall` all of them -/
theorem C54_remove (l : List α) (v : α) : remove l v = l.erase v ∧ removeAll l v = l.filter (· ≠ v) := by
  have h1 : ∀ (l p : List α), removeFrom v p l = p ++ l.erase v := by
    intro l
    induction l with
    | nil => intro p; simp [removeFrom]
    | cons a l ih =>
      intro p
      by_cases h : a = v
      · simp [removeFrom, h]
      · simp [removeFrom, h, ih]
  have h2 : ∀ (l p : List α), removeAllFrom v p l = p ++ l.filter (· ≠ v) := by
    intro l
    induction l with
    | nil => intro p; simp [removeAllFrom]
    | cons a l ih =>
      intro p
      by_cases h : a = v
      · subst h; rw [removeAllFrom, if_pos rfl, ih]; simp
      · rw [removeAllFrom, if_neg h, ih]; simp [h]
  exact ⟨h1 l [], h2 l []⟩

example : remove [1, 2, 1, 3] 1 = [2, 1, 3] ∧ removeAll [1, 2, 1, 3] 1 = [2, 3] := by decide

/-- `remove_duplicates` keeps each element once, at its last occurrence -/
theorem C54_remove_duplicates (l : List α) : removeDuplicates l = l.reverse.eraseDups.reverse ∧
    (removeDuplicates l).Nodup ∧ (∀ x, x ∈ removeDuplicates l ↔ x ∈ l) ∧ (removeDuplicates l).Sublist l := by
  have h0 : ∀ (l p : List α), removeDuplicatesFrom p l = p ++ removeDuplicatesFrom [] l := by
    intro l
    induction l with
    | nil => intro p; simp [removeDuplicatesFrom]
    | cons a l ih =>
      intro p
      by_cases h : exist l a = true
      · rw [removeDuplicatesFrom, if_pos h, removeDuplicatesFrom, if_pos h, ih]
      · rw [removeDuplicatesFrom, if_neg h, removeDuplicatesFrom, if_neg h, ih, ih ([] ++ [a])]; simp
  have step : ∀ (a : α) (l : List α), removeDuplicates (a :: l) =
      if a ∈ l then removeDuplicates l else a :: removeDuplicates l := by
    intro a l
    unfold removeDuplicates
    rw [removeDuplicatesFrom]
    by_cases h : a ∈ l
    · rw [if_pos ((exist_iff l a).2 h), if_pos h]
    · rw [if_neg (fun x => h ((exist_iff l a).1 x)), if_neg h, h0]; rfl
  induction l with
  | nil => exact ⟨rfl, List.nodup_nil, by simp [removeDuplicates, removeDuplicatesFrom], List.Sublist.slnil⟩
  | cons a l ih =>
    obtain ⟨i1, i2, i3, i4⟩ := ih
    rw [step]
    by_cases h : a ∈ l
    · rw [if_pos h]
      refine ⟨?_, i2, fun x => ?_, i4.cons a⟩
      · rw [i1, List.reverse_cons, List.eraseDups_append]
        simp [List.removeAll, h]
      · rw [i3]
        constructor
        · exact List.mem_cons_of_mem a
        · intro hx
          rcases List.mem_cons.1 hx with rfl | hx
          · exact h
          · exact hx
    · rw [if_neg h]
      refine ⟨?_, List.nodup_cons.2 ⟨fun hx => h ((i3 a).1 hx), i2⟩, fun x => ?_, i4.cons_cons a⟩
      · rw [i1, List.reverse_cons, List.eraseDups_append]
        simp [List.removeAll, h, List.eraseDups_cons]
      · simp [i3]

example : removeDuplicates [1, 2, 1, 3, 2] = [1, 3, 2] := by decide

/-- `unordered_equal` holds exactly for permutations -/
theorem C54_unordered_equal (l m : List α) : unorderedEqual l m = true ↔ l.Perm m := by
  induction l generalizing m with
  | nil =>
    cases m with
    | nil => simp [unorderedEqual]
    | cons b m => simp [unorderedEqual]
  | cons a l ih =>
    have e : unorderedEqual (a :: l) m = if exist m a then unorderedEqual l (remove m a) else false := by
      cases m with
      | nil => simp [unorderedEqual, exist, indexOf, indexOfFrom]
      | cons b m => rfl
    rw [e, (C54_remove m a).1]
    by_cases h : a ∈ m
    · rw [if_pos ((exist_iff m a).2 h), ih, List.cons_perm_iff_perm_erase]
      simp [h]
    · rw [if_neg (fun x => h ((exist_iff m a).1 x)), List.cons_perm_iff_perm_erase]
      simp [h]

example : unorderedEqual [1, 2, 1] [1, 1, 2] = true ∧ unorderedEqual [1, 2, 1] [1, 2, 2] = false := by decide

theorem C54_map_filter {β : Type} (F : α → β) (P : α → Bool) (l : List α) :
    Mpl.map F l = List.map F l ∧ Mpl.filter l P = List.filter P l := by
  constructor
  · induction l with
    | nil => rfl
    | cons a l ih => simp [Mpl.map, ih]
  · have : ∀ (l p : List α), filterFrom P p l = p ++ List.filter P l := by
      intro l
      induction l with
      | nil => intro p; simp [filterFrom]
      | cons a l ih =>
        intro p
        cases h : P a
        · rw [filterFrom, if_neg (by simp [h]), ih]; simp [h]
        · rw [filterFrom, if_pos h, ih]; simp [h]
    exact this l []

theorem C54_foldl (F : α → α → α) (I : α) (l : List α) : Mpl.foldl F I l = List.foldl F I l := by
  induction l generalizing I with
  | nil => rfl
  | cons a l ih => simp [Mpl.foldl, ih]

/-- `foldr`, what holds: right when every result of `F` is its own member `type` (as for
    `std::integral_constant`). -/
theorem C54_foldr_partial (member : α → Option α) (F : α → α → α) (I : α) (l : List α)
    (h : ∀ a b, member (F a b) = some (F a b)) : Mpl.foldr member F I l = some (List.foldr F I l) := by
  induction l with
  | nil => rfl
  | cons a l ih => simp [Mpl.foldr, ih, h]

example : ∃ (member : Nat → Option Nat) (F : Nat → Nat → Nat), (∀ a b, member (F a b) = some (F a b)) ∧
    List.foldr F 7 [3, 5] = 15 := ⟨some, (· + ·), fun _ _ => rfl, rfl⟩

end

/-- C54 is false for `foldr`: folding with `pushfront` (whose results are `type_list`s, without a member `type`)
    does not give the list back, it does not compile. -/
theorem C54_foldr_false : ∃ (member : Ty → Option Ty) (F : Ty → Ty → Ty) (I : Ty) (l : List Ty),
    (∀ x, member (.list x) = none) ∧ List.foldr F I l = .list l ∧ Mpl.foldr member F I l = none :=
  ⟨fun _ => none, fun a b => match b with | .list x => .list (a :: x) | b => b, .list [], [.atom 1], fun _ => rfl, rfl, rfl⟩

theorem makeIndexSequence_eq (n : Nat) (acc : List Nat) : makeIndexSequence n acc = List.range n ++ acc := by
  induction n generalizing acc with
  | zero => rfl
  | succ n ih => rw [makeIndexSequence, ih, List.range_succ]; simp

/-- `make_index_sequence<n>` is 0, 1, ..., n-1 -/
theorem C54_make_index_sequence (n : Nat) : makeIndexSequence n [] = List.range n := by
  rw [makeIndexSequence_eq]; simp

/-- `index_sequence_for`, what holds: one index per type, unless the only type is itself a list or tuple -/
theorem C54_index_sequence_for_partial (l : List Ty) (h : ∀ x, l ≠ [.list x] ∧ l ≠ [.tuple x]) :
    indexSequenceFor l = List.range l.length ∧ indexSequenceFor [.list l] = List.range l.length := by
  have hs : ∀ l : List Ty, indexSequenceFor.size' l = l.length := by
    intro l
    induction l with
    | nil => rfl
    | cons a l ih => simp [indexSequenceFor.size', ih]
  have h1 : indexSequenceFor l = List.range l.length := by
    rw [indexSequenceFor, C54_make_index_sequence, hs]
    · intro x hx; exact (h x).1 hx
    · intro x hx; exact (h x).2 hx
  exact ⟨h1, by rw [indexSequenceFor, h1]⟩

example : indexSequenceFor [.atom 0, .tuple [.atom 1, .atom 2]] = [0, 1] := by
  simp [indexSequenceFor, indexSequenceFor.size', makeIndexSequence]

/-- C54 is false for `index_sequence_for` of a list whose only element is a tuple: the sequence is the tuple's.
    A function with one parameter of type `std::tuple<A, B>` therefore cannot be registered. -/
theorem C54_index_sequence_for_false : ∃ l : List Ty, l.length = 1 ∧ indexSequenceFor [.list l] = [0, 1] :=
  ⟨[.tuple [.atom 1, .atom 2]], rfl, by simp [indexSequenceFor, indexSequenceFor.size', makeIndexSequence]⟩

/-- the type for values of a type list: a tuple with the types of its elements in order, lists among them likewise -/
inductive Values : Ty → Ty → Prop
  | atom (n : Nat) : Values (.atom n) (.atom n)
  | tuple (l : List Ty) : Values (.tuple l) (.tuple l)
  | list (l m : List Ty) : l.length = m.length → (∀ (i : Nat) (s t : Ty), l[i]? = some s → m[i]? = some t → Values s t) → Values (.list l) (.tuple m)

mutual
theorem runtime_values : (t : Ty) → Values t (runtime t)
  | .atom n => .atom n
  | .tuple l => .tuple l
  | .list l => by
    simp only [runtime]
    exact .list _ _ (runtimes_values l).1 (runtimes_values l).2
theorem runtimes_values : (l : List Ty) → l.length = (runtimes l).length ∧ ∀ (i : Nat) (s t : Ty), l[i]? = some s → (runtimes l)[i]? = some t → Values s t
  | [] => ⟨rfl, fun i s t h => by simp at h⟩
  | t :: ts => by
    obtain ⟨h1, h2⟩ := runtimes_values ts
    refine ⟨by simp [runtimes, h1], fun i s u h3 h4 => ?_⟩
    cases i with
    | zero =>
      simp only [runtimes, List.getElem?_cons_zero, Option.some.injEq] at h3 h4
      subst h3 h4; exact runtime_values t
    | succ i =>
      simp only [runtimes, List.getElem?_cons_succ] at h3 h4
      exact h2 i s u h3 h4
end

/-- `typelist_tuple` gives just the type for values of the list. -/
theorem C54_tuple (t u : Ty) : runtime t = u ↔ Values t u := by
  constructor
  · rintro rfl; exact runtime_values t
  · intro h
    have all : ∀ {t u v}, Values t u → Values t v → u = v := by
      intro t u v h
      induction h generalizing v with
      | atom n => intro k; cases k; rfl
      | tuple l => intro k; cases k; rfl
      | list l m e _ ih =>
        intro k
        cases k with
        | list _ m' e' f' =>
          congr 1
          apply List.ext_getElem?
          intro i
          by_cases hi : i < l.length
          · have a := List.getElem?_eq_getElem hi
            have b := List.getElem?_eq_getElem (l := m) (i := i) (by omega)
            have c := List.getElem?_eq_getElem (l := m') (i := i) (by omega)
            rw [b, c, ih i _ _ a b (f' i _ _ a c)]
          · rw [List.getElem?_eq_none (by omega), List.getElem?_eq_none (by omega)]
    exact all (runtime_values t) h

example : runtime (.list [.atom 1, .list [.atom 2, .atom 2], .tuple [.list []]]) = .tuple [.atom 1, .tuple [.atom 2, .atom 2], .tuple [.list []]] := rfl

end Rtti.Props
