import Verif.Lemmas.NamedList
/-
C14, C16 (attributes and enum elements)
-/
namespace Rtti
open Spec
variable {V : Type}

/-- C14: after any history of definitions the list never throws and every observer answers as the
    insertion-ordered, last-write-wins map of that history. -/
theorem C14_refines_ordered_map (emptyV : V) (h : List (Str × V)) :
    ∃ l, NamedList.empty.run h = some l ∧
      l.size = (definedNames h).length ∧
      (∀ i, l.nameAt i = ((definedNames h)[i]?).getD []) ∧
      (∀ i, l.getAt emptyV i = (((definedNames h)[i]?).bind (lastValue h)).getD emptyV) ∧
      (∀ n, l.get emptyV n = if n = [] then emptyV else (lastValue h n).getD emptyV) := by
  obtain ⟨l, e, r⟩ := NamedList.run_rep (NamedList.Rep.empty (V := V)) h
  simp only [List.nil_append] at r
  refine ⟨l, e, ?_, ?_, ?_, ?_⟩
  · rw [NamedList.size, ← r.names_eq, List.length_map]
  · intro i
    rw [← r.names_eq]
    unfold NamedList.nameAt
    split <;> rename_i hi
    · simp [hi]
    · simp [Nat.le_of_not_lt hi]
  · intro i
    rw [← r.names_eq]
    unfold NamedList.getAt
    split <;> rename_i hi
    · have := r.value i _ (List.getElem?_eq_getElem hi)
      simp [hi, this]
    · simp [Nat.le_of_not_lt hi]
  · intro n
    unfold NamedList.get
    by_cases hn : n = []
    · simp [hn]
    · simp only [if_neg hn]
      split
      · rename_i hx
        have hnot : n ∉ definedNames h := by
          rw [← r.names_eq]; intro hm
          obtain ⟨i, hi⟩ := List.mem_iff_getElem?.1 hm
          simp [(r.index n i).2 hi] at hx
        have : lastValue h n = none := by
          unfold lastValue
          rw [List.getLast?_eq_none_iff, List.map_eq_nil_iff, List.filter_eq_nil_iff]
          intro p hp hpn
          apply hnot
          rw [NamedList.mem_definedNames]
          exact ⟨hn, p.2, by simpa [← (by simpa using hpn : p.1 = n)] using hp⟩
        simp [this]
      · rename_i i hx
        have h1 := (r.index n i).1 hx
        rw [List.getElem?_map] at h1
        have hi : i < l.items.length := by
          apply Classical.byContradiction; intro hi
          simp [Nat.le_of_not_lt hi] at h1
        simp only [hi, dite_true]
        have h2 := r.value i _ (List.getElem?_eq_getElem hi)
        simp [hi] at h1
        rw [h1] at h2
        simp [h2]

/-- non-trivial history: redefinition, empty name, several names -/
example : definedNames [("a".toList, 1), ("b".toList, 2), ([], 9), ("a".toList, 3)]
      = ["a".toList, "b".toList]
    ∧ lastValue [("a".toList, 1), ("b".toList, 2), ([], 9), ("a".toList, 3)] "a".toList = some 3 := by
  decide

/-- C14: positions never change - defining more (or again) keeps every name at its position. -/
theorem C14_positions_stable (h h' : List (Str × V)) (l l' : NamedList V)
    (e : NamedList.empty.run h = some l) (e' : NamedList.empty.run (h ++ h') = some l')
    (i : Nat) (hi : i < l.size) : l'.nameAt i = l.nameAt i := by
  obtain ⟨l1, e1, r1⟩ := NamedList.run_rep (NamedList.Rep.empty (V := V)) h
  obtain ⟨l2, e2, r2⟩ := NamedList.run_rep (NamedList.Rep.empty (V := V)) (h ++ h')
  rw [e] at e1; cases e1
  rw [e'] at e2; cases e2
  simp only [List.nil_append] at r1 r2
  have key : ∀ k : List (Str × V), ∃ t, definedNames (h ++ k) = definedNames h ++ t := by
    intro k
    refine ⟨(((k.map (·.1)).filter (fun n => n ≠ [])).removeAll
          ((h.map (·.1)).filter (fun n => n ≠ []))).eraseDups, ?_⟩
    simp [definedNames, List.eraseDups_append]
  obtain ⟨t, ht⟩ := key h'
  have hl : (l.items.map (·.1)).length = l.items.length := by simp
  have hl' : (l'.items.map (·.1)).length = l'.items.length := by simp
  have hlt : i < l.items.length := hi
  have hlen : i < l'.items.length := by
    rw [← hl', r2.names_eq, ht, ← r1.names_eq]; simp; omega
  have : (l'.items.map (·.1))[i]? = (l.items.map (·.1))[i]? := by
    rw [r2.names_eq, ht, ← r1.names_eq, List.getElem?_append_left (by simpa using hlt)]
  simp [NamedList.nameAt, hlen, hlt] at this ⊢
  exact this

/-- C16 (attributes, enum elements): the callback sees a prefix of the members in index order,
    ending after the first call that answers `false`; an empty callback sees nothing. -/
theorem C16_attributes_enumeration {S : Type} (h : List (Str × V)) (l : NamedList V)
    (e : NamedList.empty.run h = some l) (f : Callback S (Str × V)) (s : S) :
    VisitsPrefix f s (l.forEachItem (some f) s)
        ((definedNames h).filterMap fun n => (lastValue h n).map fun v => (n, v))
      ∧ l.forEachItem none s = s := by
  obtain ⟨l1, e1, r⟩ := NamedList.run_rep (NamedList.Rep.empty (V := V)) h
  rw [e] at e1; cases e1
  simp only [List.nil_append] at r
  refine ⟨?_, rfl⟩
  have : ((definedNames h).filterMap fun n => (lastValue h n).map fun v => (n, v)) = l.items := by
    rw [← r.names_eq, List.filterMap_map]
    have : ∀ p ∈ l.items, ((fun n => (lastValue h n).map fun v => (n, v)) ∘ (·.1)) p = some p := by
      intro p hp
      obtain ⟨i, hi⟩ := List.mem_iff_getElem?.1 hp
      simp [r.value i p hi]
    generalize l.items = its at this
    induction its with
    | nil => rfl
    | cons p its ih =>
      rw [List.filterMap_cons, this p (by simp)]
      simp only [List.cons.injEq, true_and]
      exact ih fun q hq => this q (by simp [hq])
  rw [this]
  exact forEach_visits f l.items s

example : VisitsPrefix (fun (n : Nat) (a : Nat) => (n + a, a < 2)) 0 3 [1, 2, 5] :=
  ⟨2, by decide, by decide, by
    intro i a h1 h2; obtain rfl : i = 0 := by omega
    simp at h2; subst h2; decide, by
    intro i a h1 h2 _; obtain rfl : i = 1 := by omega
    simp at h2; subst h2; decide, by decide⟩

/-- the enumeration contract determines the result: there is only one outcome allowed by it -/
theorem C16_contract_deterministic {S A : Type} (f : Callback S A) (s s1 s2 : S) (as : List A)
    (h1 : VisitsPrefix f s s1 as) (h2 : VisitsPrefix f s s2 as) : s1 = s2 := by
  obtain ⟨k, a1, a2, a3, a4, a5⟩ := h1
  obtain ⟨m, b1, b2, b3, b4, b5⟩ := h2
  have aux : ∀ (k m : Nat) (_ : k < m) (_ : m ≤ as.length),
      (∀ i a, i + 1 < m → as[i]? = some a →
        (f ((as.take i).foldl (fun t a => (f t a).1) s) a).2 = true) →
      (∀ i a, i + 1 = k → as[i]? = some a → k < as.length →
        (f ((as.take i).foldl (fun t a => (f t a).1) s) a).2 = false) →
      (k = 0 → as = []) → False := by
    intro k m hkm hm c3 c4 c5
    cases k with
    | zero => have := c5 rfl; subst this; simp at hm; omega
    | succ k =>
      have hk : k < as.length := by omega
      have x := c3 k as[k] (by omega) (by simp [hk])
      have y := c4 k as[k] rfl (by simp [hk]) (by omega)
      rw [x] at y; cases y
  rcases Nat.lt_trichotomy k m with h | h | h
  · exact (aux k m h b1 b3 a4 a5).elim
  · subst h; rw [← a2, ← b2]
  · exact (aux m k h a1 a3 b4 b5).elim

end Rtti
