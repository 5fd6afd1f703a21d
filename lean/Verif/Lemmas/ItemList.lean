import Verif.Lemmas.NamedList
import Verif.Spec.Items
namespace Rtti
open Spec
namespace ItemList

/-- representation invariant of the list -/
structure Wf (l : ItemList) : Prop where
  nodup : (l.items.map (·.name)).Nodup
  nodupPtr : (l.items.map (·.ptr)).Nodup
  index : ∀ (n : Str) (i : Nat), l.names n = some i ↔ (l.items.map (·.name))[i]? = some n

theorem Wf.empty : Wf ItemList.empty := by
  constructor <;> simp [ItemList.empty]

theorem Wf.names_isSome {l : ItemList} (w : Wf l) (n : Str) :
    (l.names n).isSome = true ↔ ∃ x ∈ l.items, x.name = n := by
  constructor
  · intro h
    obtain ⟨i, hi⟩ := Option.isSome_iff_exists.1 h
    have := (w.index n i).1 hi
    have := List.mem_of_getElem? this
    simpa using this
  · rintro ⟨x, hx, rfl⟩
    have : x.name ∈ l.items.map (·.name) := List.mem_map_of_mem hx
    obtain ⟨i, hi⟩ := List.mem_iff_getElem?.1 this
    rw [(w.index x.name i).2 hi]; rfl

/-- what `add` does, in terms of the member list only -/
theorem Wf.add_spec {l : ItemList} (w : Wf l) (v : Item) :
    if (∃ x ∈ l.items, x.ptr = v.ptr) ∨ (∃ x ∈ l.items, x.name = v.name)
    then l.add (some v) = (l, false)
    else (l.add (some v)).1.items = l.items ++ [v] ∧ (l.add (some v)).2 = true := by
  have h1 : (l.items.any fun it => v.ptr == it.ptr) = true ↔ ∃ x ∈ l.items, x.ptr = v.ptr := by
    rw [List.any_eq_true]
    constructor
    · rintro ⟨x, hx, e⟩; exact ⟨x, hx, (by simpa using e : v.ptr = x.ptr).symm⟩
    · rintro ⟨x, hx, e⟩; exact ⟨x, hx, by simp [e]⟩
  have h2 := w.names_isSome v.name
  unfold ItemList.add
  simp only
  split
  · rename_i h
    rw [← h1, ← h2] at h
    rw [if_neg]
    rcases h with h | h <;> simp [h]
  · rename_i h
    rw [← h1, ← h2] at h
    rw [if_pos]
    · simp
    · simp only [not_or, Bool.not_eq_true] at h
      simp [h]

theorem Wf.add {l : ItemList} (w : Wf l) (v : Option Item) : Wf (l.add v).1 := by
  cases v with
  | none => exact w
  | some v =>
    have hs := w.add_spec v
    split at hs
    · rw [hs]; exact w
    · rename_i hnot
      simp only [not_or, not_exists, not_and] at hnot
      obtain ⟨hp, hn⟩ := hnot
      have e : (l.add (some v)).1 =
          ⟨l.items ++ [v], fun n => if n = v.name then some l.items.length else l.names n⟩ := by
        unfold ItemList.add at hs ⊢
        simp only at hs ⊢
        split at hs
        · rename_i hc; rw [if_pos hc]
        · simp at hs
      rw [e]
      constructor
      · simp only [List.map_append, List.map_cons, List.map_nil]
        rw [List.nodup_append]
        refine ⟨w.nodup, by simp, ?_⟩
        simp; exact hn
      · simp only [List.map_append, List.map_cons, List.map_nil]
        rw [List.nodup_append]
        refine ⟨w.nodupPtr, by simp, ?_⟩
        simp; exact hp
      · intro n i
        simp only [List.map_append, List.map_cons, List.map_nil]
        have hm := w.index n i
        rw [List.getElem?_append, List.length_map, List.getElem?_singleton]
        by_cases en : n = v.name
        · subst en
          have hnone : ¬ (l.names v.name).isSome = true := by
            rw [w.names_isSome]; rintro ⟨x, hx, e⟩; exact hn x hx e
          simp only [if_true]
          by_cases hlt : i < l.items.length
          · rw [if_pos hlt, ← hm]; simp at hnone; simp [hnone]; omega
          · rw [if_neg hlt]; simp; omega
        · rw [if_neg en]
          split
          · exact hm
          · rename_i hlt
            constructor
            · intro hi; have := (List.getElem?_eq_some_iff.1 ((w.index n i).1 hi)).1
              simp at this; omega
            · intro hi; split at hi
              · simp at hi; exact absurd hi.symm en
              · simp at hi

theorem Wf.get_iff {l : ItemList} (w : Wf l) (n : Str) (x : Item) :
    l.get n = some x ↔ n ≠ [] ∧ x ∈ l.items ∧ x.name = n := by
  unfold ItemList.get
  by_cases hn : n = []
  · simp [hn]
  · rw [if_neg hn]
    simp only [ne_eq, hn, not_false_eq_true, true_and]
    split
    · rename_i hx
      have : ¬ (l.names n).isSome = true := by simp [hx]
      rw [w.names_isSome] at this
      constructor
      · simp
      · rintro ⟨a, b⟩; exact absurd ⟨x, a, b⟩ this
    · rename_i i hx
      have hi := (w.index n i).1 hx
      obtain ⟨h1, h2⟩ := List.getElem?_eq_some_iff.1 hi
      have hlt : i < l.items.length := by simpa using h1
      simp only [hlt, dite_true, Option.some.injEq]
      constructor
      · rintro rfl
        exact ⟨List.getElem_mem _, by simpa using h2⟩
      · rintro ⟨a, b⟩
        obtain ⟨j, hj⟩ := List.mem_iff_getElem?.1 a
        have : l.names n = some j := (w.index n j).2 (by simp [hj, b])
        rw [hx] at this
        obtain rfl := Option.some.inj this
        obtain ⟨_, h⟩ := List.getElem?_eq_some_iff.1 hj
        exact h

theorem Wf.get_none {l : ItemList} (w : Wf l) (n : Str) :
    l.get n = none ↔ n = [] ∨ ∀ x ∈ l.items, x.name ≠ n := by
  constructor
  · intro h
    by_cases hn : n = []
    · exact .inl hn
    · right; intro x hx e
      have := (w.get_iff n x).2 ⟨hn, hx, e⟩
      rw [h] at this; cases this
  · intro h
    cases hg : l.get n with
    | none => rfl
    | some x =>
      obtain ⟨a, b, c⟩ := (w.get_iff n x).1 hg
      rcases h with h | h
      · exact absurd h a
      · exact absurd c (h x b)

theorem run_wf (h : List (Option Item)) {l : ItemList} (w : Wf l) : Wf (l.run h).1 := by
  induction h generalizing l with
  | nil => exact w
  | cons v h ih => exact ih (w.add v)

theorem run_append (l : ItemList) (h h' : List (Option Item)) :
    l.run (h ++ h') = (((l.run h).1.run h').1, (l.run h).2 ++ ((l.run h).1.run h').2) := by
  induction h generalizing l with
  | nil => simp [run]
  | cons v h ih => simp [run, ih]

end ItemList

theorem findParen_some {s : Str} {p : Nat} (h : findParen s = some p) :
    ∃ a b, s = a ++ '(' :: b ∧ '(' ∉ a ∧ a.length = p := by
  induction s generalizing p with
  | nil => simp [findParen] at h
  | cons c cs ih =>
    unfold findParen at h
    split at h
    · rename_i e; simp at h; exact ⟨[], cs, by simp [e], by simp, by simp [← h]⟩
    · rename_i e
      cases hf : findParen cs with
      | none => simp [hf] at h
      | some q =>
        simp [hf] at h
        obtain ⟨a, b, e1, e2, e3⟩ := ih hf
        exact ⟨c :: a, b, by simp [e1], by simp [e2, Ne.symm e], by simp [e3, h]⟩

theorem findParen_none {s : Str} (h : findParen s = none) : '(' ∉ s := by
  induction s with
  | nil => simp
  | cons c cs ih =>
    unfold findParen at h
    split at h
    · simp at h
    · rename_i e; simp at h; simp [ih h, Ne.symm e]

/-- the lambda never throws and decides `Denotes` -/
theorem methodMatches_spec (m q : Str) :
    ∃ b, methodMatches m q = some b ∧ (b = true ↔ Denotes q m) := by
  unfold methodMatches Denotes
  cases hf : findParen m with
  | none =>
    have hn := findParen_none hf
    refine ⟨_, rfl, ?_⟩
    simp only [decide_eq_true_eq]
    constructor
    · exact Or.inl
    · rintro (h | ⟨r, h, _⟩)
      · exact h
      · subst h; simp at hn
  | some pos =>
    obtain ⟨a, b, rfl, ha, rfl⟩ := findParen_some hf
    simp only [compareEq]
    rw [if_neg (by simp)]
    simp only [List.drop_zero]
    by_cases hlen : a.length ≤ q.length
    · rw [Nat.min_eq_left hlen]
      by_cases hp : a = q.take a.length
      · have e1 : ((a ++ '(' :: b).take a.length = q.take a.length) := by simp [← hp]
        simp only [e1, decide_true]
        by_cases hl : a.length = q.length
        · have : a = q := by rw [hl] at hp; simpa using hp
          subst this
          exact ⟨true, by simp, by simp [ha]⟩
        · rw [if_neg hl, if_neg (by simp; omega)]
          refine ⟨_, rfl, ?_⟩
          have e2 : ((a ++ '(' :: b).drop a.length).take ((a ++ '(' :: b).length - a.length)
              = '(' :: b := by simp
          have e3 : (q.drop a.length).take (q.length - a.length) = q.drop a.length := by
            apply List.take_of_length_le; simp
          rw [e2, e3, decide_eq_true_eq]
          constructor
          · intro h
            left
            rw [← List.take_append_drop a.length q, ← hp, h]
          · rintro (h | ⟨r, h, hq⟩)
            · rw [← h]; simp
            · exfalso
              obtain ⟨c, hc⟩ : ∃ c, q = a ++ c := ⟨q.drop a.length,
                (List.take_append_drop a.length q).symm.trans (by rw [← hp])⟩
              subst hc
              cases c with
              | nil => simp at hl
              | cons x c =>
                simp at h
                obtain ⟨rfl, _⟩ := h
                simp at hq
      · have e1 : ¬ ((a ++ '(' :: b).take a.length = q.take a.length) := by simpa using hp
        refine ⟨false, by simp only [e1, decide_false], ?_⟩
        simp only [Bool.false_eq_true, false_iff, not_or, not_exists, not_and]
        constructor
        · intro h; apply e1; rw [h]
        · intro r h hq
          apply hp
          have : ∀ (a b q r : Str), '(' ∉ a → '(' ∉ q → a ++ '(' :: b = q ++ '(' :: r → a = q := by
            intro a b q r ha hq h
            induction a generalizing q with
            | nil => cases q with
              | nil => rfl
              | cons x q => simp at h hq; exact absurd h.1 hq.1
            | cons y a ih => cases q with
              | nil => simp at h ha; exact absurd h.1.symm ha.1
              | cons x q =>
                simp at h ha hq
                rw [h.1, ih q ha.2 hq.2 h.2]
          rw [this a b q r ha hq h]; simp
    · have hlt : q.length < a.length := by omega
      rw [Nat.min_eq_right (by omega)]
      have e1 : ¬ ((a ++ '(' :: b).take a.length = q.take q.length) := by
        intro h; have := congrArg List.length h; simp at this; omega
      refine ⟨false, by simp only [e1, decide_false], ?_⟩
      simp only [Bool.false_eq_true, false_iff, not_or, not_exists, not_and]
      constructor
      · intro h; have := congrArg List.length h; simp at this; omega
      · intro r h hq
        have : '(' ∈ a := by
          have h1 : (a ++ '(' :: b)[q.length]? = some '(' := by rw [h]; simp
          rw [List.getElem?_append_left hlt] at h1
          exact List.mem_of_getElem? h1
        exact ha this

theorem findMethod_spec (q : Str) (its : List Item) :
    ∃ r, findMethod q its = some r ∧
      (∀ x, r = some x ↔ IsFirst (fun it : Item => Denotes q it.name) its x) ∧
      (r = none ↔ ∀ x ∈ its, ¬ Denotes q x.name) := by
  induction its with
  | nil => exact ⟨none, rfl, by simp [IsFirst], by simp⟩
  | cons it its ih =>
    obtain ⟨b, hb, hd⟩ := methodMatches_spec it.name q
    unfold findMethod
    rw [hb]
    cases b with
    | true =>
      have hd := hd.1 rfl
      refine ⟨some it, rfl, ?_, ?_⟩
      · intro x
        constructor
        · intro e; cases e; exact ⟨[], its, rfl, hd, by simp⟩
        · rintro ⟨pre, post, e, h1, h2⟩
          cases pre with
          | nil => simp at e; rw [e.1]
          | cons y pre => simp at e; exact absurd (e.1 ▸ hd) (h2 y (by simp))
      · simp [hd]
    | false =>
      have hd : ¬ Denotes q it.name := fun h => by simpa using hd.2 h
      obtain ⟨r, e, h1, h2⟩ := ih
      refine ⟨r, e, ?_, ?_⟩
      · intro x
        rw [h1 x]
        constructor
        · rintro ⟨pre, post, e, h3, h4⟩
          exact ⟨it :: pre, post, by simp [e], h3, by simpa [hd] using h4⟩
        · rintro ⟨pre, post, e, h3, h4⟩
          cases pre with
          | nil => simp at e; exact absurd (e.1 ▸ h3) hd
          | cons y pre =>
            simp at e
            exact ⟨pre, post, e.2, h3, fun z hz => h4 z (by simp [hz])⟩
      · rw [h2]; simp [hd]

end Rtti
