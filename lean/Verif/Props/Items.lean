import Verif.Lemmas.ItemList
/-
C15, C16 (container members), C22, part of C59
-/
namespace Rtti
open Spec

/-- C15: additions are accepted exactly as specified, by the member list alone. -/
theorem C15_accepts_iff_new (h : List (Option Item)) :
    Accepted h (ItemList.empty.run h).1.items (ItemList.empty.run h).2 := by
  suffices H : ∀ h' h its bs, Accepted h its bs → ∀ l : ItemList, l.Wf → l.items = its →
      Accepted (h ++ h') (l.run h').1.items (bs ++ (l.run h').2) by
    simpa using H h [] [] [] .nil ItemList.empty .empty rfl
  intro h'
  induction h' with
  | nil => intro h its bs a l w e; subst e; simpa [ItemList.run] using a
  | cons v h' ih =>
    intro h its bs a l w e
    subst e
    have hw := w.add v
    have step : Accepted (h ++ [v]) (l.add v).1.items (bs ++ [(l.add v).2]) := by
      cases v with
      | none => exact .null a
      | some v =>
        have hs := w.add_spec v
        split at hs
        · rename_i hc; rw [hs]; exact .refuse v a hc
        · rename_i hc
          rw [hs.1, hs.2]
          simp only [not_or, not_exists, not_and] at hc
          exact .accept v a hc.1 hc.2
    simpa [ItemList.run] using ih _ _ _ step _ hw rfl

/-- C15: by-name and by-index look-up agree, names are unique, indices are dense in registration
    order (`getAt i` is the i-th accepted item), and unknown names / indices give null. -/
theorem C15_lookups_agree (h : List (Option Item)) (l : ItemList)
    (e : l = (ItemList.empty.run h).1) :
    (∀ n x, l.get n = some x ↔ n ≠ [] ∧ x.name = n ∧ ∃ i, l.getAt i = some x) ∧
    (∀ n, l.get n = none ↔ n = [] ∨ ∀ i x, l.getAt i = some x → x.name ≠ n) ∧
    (∀ i, i < l.size ↔ ∃ x, l.getAt i = some x) ∧
    (∀ i j x y, l.getAt i = some x → l.getAt j = some y → (x.name = y.name ∨ x.ptr = y.ptr) → i = j) := by
  have w : l.Wf := e ▸ ItemList.run_wf h .empty
  have hget : ∀ i, l.getAt i = l.items[i]? := by
    intro i; unfold ItemList.getAt; split
    · rename_i h; simp [h]
    · rename_i h; simp [Nat.le_of_not_lt h]
  refine ⟨?_, ?_, ?_, ?_⟩
  · intro n x
    rw [w.get_iff]
    simp only [hget]
    rw [List.mem_iff_getElem?]
    exact ⟨fun ⟨a, b, c⟩ => ⟨a, c, b⟩, fun ⟨a, b, c⟩ => ⟨a, c, b⟩⟩
  · intro n
    rw [w.get_none]
    simp only [hget, List.mem_iff_getElem?]
    constructor
    · rintro (h | h)
      · exact .inl h
      · exact .inr fun i x hi => h x ⟨i, hi⟩
    · rintro (h | h)
      · exact .inl h
      · exact .inr fun x ⟨i, hi⟩ => h i x hi
  · intro i
    rw [hget]
    constructor
    · intro h; exact ⟨l.items[i], by simp [ItemList.size] at h; simp [h]⟩
    · rintro ⟨x, hx⟩; exact (List.getElem?_eq_some_iff.1 hx).1
  · intro i j x y hi hj hxy
    rw [hget] at hi hj
    rcases hxy with hn | hp
    · have h1 := (w.index x.name i).2 (by simp [hi])
      have h2 := (w.index x.name j).2 (by simp [hj, hn])
      rw [h1] at h2; exact Option.some.inj h2
    · obtain ⟨a, a'⟩ := List.getElem?_eq_some_iff.1 hi
      obtain ⟨b, b'⟩ := List.getElem?_eq_some_iff.1 hj
      have hnd := w.nodupPtr
      rw [List.Nodup, List.pairwise_iff_getElem] at hnd
      rcases Nat.lt_trichotomy i j with h | h | h
      · have := hnd i j (by simpa using a) (by simpa using b) h; simp [a', b', hp] at this
      · exact h
      · have := hnd j i (by simpa using b) (by simpa using a) h; simp [a', b', hp] at this

/-- C15/C59: an item once present stays at its index, and stays the answer of by-name look-up. -/
theorem C15_items_never_move (h h' : List (Option Item)) (i : Nat) (x : Item)
    (hx : (ItemList.empty.run h).1.getAt i = some x) :
    (ItemList.empty.run (h ++ h')).1.getAt i = some x ∧
    (x.name ≠ [] → (ItemList.empty.run (h ++ h')).1.get x.name = some x) := by
  have hget : ∀ (l : ItemList) i, l.getAt i = l.items[i]? := by
    intro l i; unfold ItemList.getAt; split
    · rename_i h; simp [h]
    · rename_i h; simp [Nat.le_of_not_lt h]
  have mono : ∀ (h' : List (Option Item)) (l : ItemList), l.Wf → ∃ t, (l.run h').1.items = l.items ++ t := by
    intro h'
    induction h' with
    | nil => intro l _; exact ⟨[], by simp [ItemList.run]⟩
    | cons v h' ih =>
      intro l w
      obtain ⟨t, ht⟩ := ih _ (w.add v)
      have : ∃ t0, (l.add v).1.items = l.items ++ t0 := by
        cases v with
        | none => exact ⟨[], by simp [ItemList.add]⟩
        | some v =>
          have := w.add_spec v
          split at this
          · exact ⟨[], by simp [this]⟩
          · exact ⟨[v], this.1⟩
      obtain ⟨t0, h0⟩ := this
      exact ⟨t0 ++ t, by simp [ItemList.run, ht, h0]⟩
  have w : (ItemList.empty.run h).1.Wf := ItemList.run_wf h .empty
  have w' : (ItemList.empty.run (h ++ h')).1.Wf := ItemList.run_wf _ .empty
  obtain ⟨t, ht⟩ := mono h' _ w
  have e : (ItemList.empty.run (h ++ h')).1.items = (ItemList.empty.run h).1.items ++ t := by
    rw [ItemList.run_append]; exact ht
  rw [hget] at hx ⊢
  have h1 : (ItemList.empty.run (h ++ h')).1.items[i]? = some x := by
    rw [e, List.getElem?_append_left (List.getElem?_eq_some_iff.1 hx).1, hx]
  exact ⟨h1, fun hn => (w'.get_iff _ _).2 ⟨hn, List.mem_of_getElem? h1, rfl⟩⟩

/-- C15: the six categories of a container do not interfere: whatever is added to a container, the members of a category and the answers to
    its additions are those of a history with only these additions; adding nothing is refused. -/
theorem C15_categories_independent (h : List (Option (Cat × Item))) (k : Cat) :
    Accepted (ofCat k h) ((Container.empty.run h).1 k).items (answersOf k h (Container.empty.run h).2) ∧
    ∀ i : Nat, h[i]? = some none → (Container.empty.run h).2[i]? = some false := by
  have H : ∀ (h : List (Option (Cat × Item))) (c : Container),
      (c.run h).1 k = ((c k).run (ofCat k h)).1 ∧ answersOf k h (c.run h).2 = ((c k).run (ofCat k h)).2 ∧
      ∀ i : Nat, h[i]? = some none → (c.run h).2[i]? = some false := by
    intro h
    induction h with
    | nil => intro c; exact ⟨rfl, rfl, by simp⟩
    | cons v h ih =>
      intro c
      obtain ⟨h1, h2, h3⟩ := ih (c.addItem v).1
      refine ⟨?_, ?_, fun i hi => ?_⟩
      · rcases v with _ | ⟨k', it⟩
        · simpa [Container.run, Container.addItem, ofCat] using h1
        · by_cases e : k' = k
          · subst e; simpa [Container.run, Container.addItem, ofCat, ItemList.run] using h1
          · have e' : ¬ k = k' := fun x => e x.symm
            simpa [Container.run, Container.addItem, ofCat, ItemList.run, e, e'] using h1
      · rcases v with _ | ⟨k', it⟩
        · simpa [Container.run, Container.addItem, ofCat, answersOf] using h2
        · by_cases e : k' = k
          · subst e; simpa [Container.run, Container.addItem, ofCat, answersOf, ItemList.run] using h2
          · have e' : ¬ k = k' := fun x => e x.symm
            simpa [Container.run, Container.addItem, ofCat, answersOf, ItemList.run, e, e'] using h2
      · cases i with
        | zero => simp at hi; subst hi; simp [Container.run, Container.addItem]
        | succ i => simpa [Container.run] using h3 i (by simpa using hi)
  obtain ⟨h1, h2, h3⟩ := H h Container.empty
  refine ⟨?_, h3⟩
  rw [h1, h2]
  exact C15_accepts_iff_new _

example : let h := [some (Cat.cls, ⟨1, "a".toList⟩), some (.enum, ⟨2, "a".toList⟩), none, some (.cls, ⟨3, "a".toList⟩)]
    (Container.empty.run h).2 = [true, true, false, false] ∧ ofCat .cls h = [some ⟨1, "a".toList⟩, some ⟨3, "a".toList⟩] := by decide

example : let h := [some ⟨1, "a".toList⟩, some ⟨2, "b".toList⟩, some ⟨3, "a".toList⟩, none, some ⟨1, "c".toList⟩]
    (ItemList.empty.run h).2 = [true, true, false, false, false]
    ∧ (ItemList.empty.run h).1.get "a".toList = some ⟨1, "a".toList⟩ := by decide

/-- C16 (classes, methods): enumeration contract for container members. -/
theorem C16_members_enumeration {S : Type} (h : List (Option Item)) (its : List Item) (bs : List Bool)
    (a : Accepted h its bs) (f : Callback S Item) (s : S) :
    VisitsPrefix f s ((ItemList.empty.run h).1.forEachItem (some f) s) its ∧
    (ItemList.empty.run h).1.forEachItem none s = s := by
  refine ⟨?_, rfl⟩
  have a' := C15_accepts_iff_new h
  -- the specification is deterministic
  have det : ∀ {h its bs its' bs'}, Accepted h its bs → Accepted h its' bs' → its = its' ∧ bs = bs' := by
    intro h its bs its' bs' x
    induction x generalizing its' bs' with
    | nil =>
      intro y; generalize hg : ([] : List (Option Item)) = g at y
      cases y <;> simp_all
    | @null h its bs x ih =>
      intro y; generalize hg : h ++ [none] = g at y
      cases y <;> simp at hg
      rename_i y; obtain ⟨rfl⟩ := hg; obtain ⟨rfl, rfl⟩ := ih y; exact ⟨rfl, rfl⟩
    | @accept h its bs v x h1 h2 ih =>
      intro y; generalize hg : h ++ [some v] = g at y
      cases y with
      | nil => simp at hg
      | null => simp at hg
      | accept v' y _ _ => 
        simp at hg; obtain ⟨rfl, rfl⟩ := hg; obtain ⟨rfl, rfl⟩ := ih y; exact ⟨rfl, rfl⟩
      | refuse v' y hc =>
        simp at hg; obtain ⟨rfl, rfl⟩ := hg; obtain ⟨rfl, rfl⟩ := ih y
        rcases hc with ⟨z, hz, e⟩ | ⟨z, hz, e⟩
        · exact absurd e (h1 z hz)
        · exact absurd e (h2 z hz)
    | @refuse h its bs v x hc ih =>
      intro y; generalize hg : h ++ [some v] = g at y
      cases y with
      | nil => simp at hg
      | null => simp at hg
      | accept v' y h1 h2 => 
        simp at hg; obtain ⟨rfl, rfl⟩ := hg; obtain ⟨rfl, rfl⟩ := ih y
        rcases hc with ⟨z, hz, e⟩ | ⟨z, hz, e⟩
        · exact absurd e (h1 z hz)
        · exact absurd e (h2 z hz)
      | refuse v' y hc =>
        simp at hg; obtain ⟨rfl, rfl⟩ := hg; obtain ⟨rfl, rfl⟩ := ih y; exact ⟨rfl, rfl⟩
  obtain ⟨e, _⟩ := det a' a
  rw [← e]
  exact forEach_visits f _ s

example : Accepted [some ⟨1, "a".toList⟩, some ⟨2, "a".toList⟩] [⟨1, "a".toList⟩] [true, false] :=
  .refuse (h := [some ⟨1, "a".toList⟩]) _ (.accept (h := []) _ .nil (by simp) (by simp)) (by simp)

/-- C22: method look-up never throws, returns the first registered method denoted by the query and
    null exactly when no method is denoted by it. -/
theorem C22_find_first_denoted (q : Str) (its : List Item) :
    ∃ r, findMethod q its = some r ∧
      (∀ x, r = some x ↔ IsFirst (fun it : Item => Denotes q it.name) its x) ∧
      (r = none ↔ ∀ x ∈ its, ¬ Denotes q x.name) := findMethod_spec q its

/-- C22: a query that contains a parenthesis only matches the method with exactly that signature. -/
theorem C22_full_signature_exact (q : Str) (hq : '(' ∈ q) (its : List Item) (x : Item)
    (h : findMethod q its = some (some x)) : x.name = q := by
  obtain ⟨r, e, h1, _⟩ := findMethod_spec q its
  rw [e] at h; cases h
  obtain ⟨_, _, _, hd, _⟩ := (h1 x).1 rfl
  rcases hd with hd | ⟨_, _, hn⟩
  · exact hd
  · exact absurd hq hn

/-- C22: a query without parenthesis selects the earliest registered overload of that name. -/
theorem C22_short_name_first_overload (q : Str) (hq : '(' ∉ q) (pre post : List Item) (x : Item)
    (rest : Str) (hx : x.name = q ++ '(' :: rest)
    (hpre : ∀ y ∈ pre, y.name ≠ q ∧ ∀ r, y.name ≠ q ++ '(' :: r) :
    findMethod q (pre ++ x :: post) = some (some x) := by
  obtain ⟨r, e, h1, _⟩ := findMethod_spec q (pre ++ x :: post)
  rw [e]
  congr 1
  refine (h1 x).2 ⟨pre, post, rfl, .inr ⟨rest, hx, hq⟩, ?_⟩
  intro y hy hd
  rcases hd with hd | ⟨r, hr, _⟩
  · exact (hpre y hy).1 hd
  · exact (hpre y hy).2 r hr

example : findMethod "f".toList [⟨1, "g(int)".toList⟩, ⟨2, "f(int)".toList⟩, ⟨3, "f()".toList⟩]
      = some (some ⟨2, "f(int)".toList⟩)
    ∧ findMethod "f()".toList [⟨1, "g(int)".toList⟩, ⟨2, "f(int)".toList⟩, ⟨3, "f()".toList⟩]
      = some (some ⟨3, "f()".toList⟩) := by decide

end Rtti
