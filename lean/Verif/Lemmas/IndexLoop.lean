import Verif.Lemmas.ItemList
import Verif.Spec.IndexLoop
set_option autoImplicit false
namespace Rtti.IndexLoop
open Spec

theorem additions_append (a b : List Ev) : additions (a ++ b) = additions a ++ additions b := by
  induction a with
  | nil => rfl
  | cons e a ih => cases e <;> simp [additions, ih]

theorem turns_append (a b : List Ev) : turns (a ++ b) = turns a + turns b := by
  induction a with
  | nil => simp [turns]
  | cons e a ih => cases e <;> simp [turns, ih] <;> omega

theorem add_items (l : ItemList) (v : Option Item) :
    (l.add v).1.items = l.items ∨ ∃ x, (l.add v).1.items = l.items ++ [x] := by
  unfold ItemList.add
  cases v with
  | none => exact .inl rfl
  | some v =>
    dsimp only
    split
    · exact .inr ⟨v, rfl⟩
    · exact .inl rfl

structure Inv (h : List (Option Item)) (past : List Ev) (s : Walk) : Prop where
  list : s.list = (ItemList.empty.run (h ++ additions past)).1
  le : s.seen.length ≤ s.list.items.length
  seen : s.seen = (s.list.items.take s.seen.length).map some
  test : ∀ i, s.pc = .test i → i = s.seen.length ∧ turns past = 2 * i
  fetch : ∀ i, s.pc = .fetch i → i = s.seen.length ∧ turns past = 2 * i + 1 ∧ i < s.list.items.length
  done : s.pc = .done → ∃ p q, past = p ++ .me :: q ∧ s.seen = (ItemList.empty.run (h ++ additions p)).1.items.map some

theorem Inv.start (h : List (Option Item)) : Inv h [] (walk (ItemList.empty.run h).1) :=
  ⟨by simp [walk, additions], by simp [walk], by simp [walk],
    (by intro i e; cases e; exact ⟨rfl, rfl⟩), (by intro i e; cases e), (by intro e; cases e)⟩

theorem Inv.step {h : List (Option Item)} {past : List Ev} {s : Walk} (i : Inv h past s) (e : Ev) : Inv h (past ++ [e]) (s.step e) := by
  cases e with
  | add v =>
    have hl : (s.list.add v).1 = (ItemList.empty.run (h ++ additions (past ++ [.add v]))).1 := by
      rw [additions_append, ← List.append_assoc, ItemList.run_append, ← i.list]; rfl
    have ht : turns (past ++ [.add v]) = turns past := by simp [turns_append, turns]
    have hg : ∃ xs, (s.list.add v).1.items = s.list.items ++ xs := by
      rcases add_items s.list v with e | ⟨x, e⟩
      · exact ⟨[], by simp [e]⟩
      · exact ⟨[x], e⟩
    obtain ⟨xs, hx⟩ := hg
    refine ⟨hl, ?_, ?_, ?_, ?_, ?_⟩
    · simp only [Walk.step, hx, List.length_append]; have := i.le; omega
    · simp only [Walk.step, hx]; rw [List.take_append_of_le_length i.le]; exact i.seen
    · intro k e; rw [ht]; exact i.test k e
    · intro k e
      obtain ⟨a, b, c⟩ := i.fetch k e
      rw [ht]; exact ⟨a, b, by simp only [Walk.step, hx, List.length_append]; omega⟩
    · intro e
      obtain ⟨p, q, a, b⟩ := i.done e
      exact ⟨p, q ++ [.add v], by simp [a], b⟩
  | me =>
    have ha : additions (past ++ [.me]) = additions past := by simp [additions_append, additions]
    have ht : turns (past ++ [.me]) = turns past + 1 := by simp [turns_append, turns]
    cases hp : s.pc with
    | test k =>
      obtain ⟨a, b⟩ := i.test k hp
      have es : s.step .me = { s with pc := if k < s.list.size then .fetch k else .done } := by simp [Walk.step, hp]
      rw [es]
      refine ⟨by rw [ha]; exact i.list, i.le, i.seen, ?_, ?_, ?_⟩
      · intro j e; dsimp only at e; split at e <;> cases e
      · intro j e
        dsimp only at e; split at e <;> cases e
        rename_i hk
        exact ⟨a, by omega, hk⟩
      · intro e
        dsimp only at e; split at e
        · cases e
        · rename_i hk
          refine ⟨past, [], rfl, ?_⟩
          rw [← i.list]
          have := i.seen
          have hle : s.list.items.length ≤ s.seen.length := by simp only [ItemList.size] at hk; omega
          rwa [List.take_of_length_le hle] at this
    | fetch k =>
      obtain ⟨a, b, c⟩ := i.fetch k hp
      have es : s.step .me = { s with pc := .test (k + 1), seen := s.seen ++ [s.list.getAt k] } := by simp [Walk.step, hp]
      have hg : s.list.getAt k = some s.list.items[k] := by simp [ItemList.getAt, c]
      rw [es]
      refine ⟨by rw [ha]; exact i.list, ?_, ?_, ?_, (by intro j e; cases e), (by intro e; cases e)⟩
      · simp; omega
      · simp only [List.length_append, List.length_singleton]
        rw [← a, List.take_add_one, List.getElem?_eq_getElem c]
        simp only [Option.toList_some, List.map_append, List.map_cons, List.map_nil]
        have hs := i.seen
        rw [← a] at hs
        rw [hg, ← hs]
      · intro j e
        cases e
        exact ⟨by simp [a], by omega⟩
    | done =>
      have es : s.step .me = s := by simp [Walk.step, hp]
      rw [es]
      obtain ⟨p, q, a, b⟩ := i.done hp
      exact ⟨by rw [ha]; exact i.list, i.le, i.seen, (by rw [hp]; nofun), (by rw [hp]; nofun), fun _ => ⟨p, q ++ [.me], by simp [a], b⟩⟩

theorem Inv.run {h : List (Option Item)} (es : List Ev) : ∀ {past : List Ev} {s : Walk}, Inv h past s → Inv h (past ++ es) (s.run es) := by
  induction es with
  | nil => intro past s i; rw [List.append_nil]; exact i
  | cons e es ih => intro past s i; have := ih (i.step e); simpa [Walk.run] using this

/-- every walk from a list made by a history of additions -/
theorem Inv.of (h : List (Option Item)) (es : List Ev) : Inv h es ((walk (ItemList.empty.run h).1).run es) := by
  simpa using (Inv.start h).run es

variable {V : Type}

theorem writes_append (a b : List (AEv V)) : writes (a ++ b) = writes a ++ writes b := by
  induction a with
  | nil => rfl
  | cons e a ih => cases e <;> simp [writes, ih]

theorem aturns_append (a b : List (AEv V)) : aturns (a ++ b) = aturns a + aturns b := by
  induction a with
  | nil => simp [aturns]
  | cons e a ih => cases e <;> simp [aturns, ih] <;> omega

theorem definedNames_grow (h : List (Str × V)) (n : Str) (v : V) : ∃ xs, definedNames (h ++ [(n, v)]) = definedNames h ++ xs := by
  rw [NamedList.definedNames_snoc]
  split
  · exact ⟨[], by simp⟩
  · exact ⟨[n], rfl⟩

structure AInv (h : List (Str × V)) (past : List (AEv V)) (s : AWalk V) : Prop where
  rep : NamedList.Rep s.list (h ++ writes past)
  le : s.seen.length ≤ (definedNames (h ++ writes past)).length
  names : s.seen.map (·.1) = (definedNames (h ++ writes past)).take s.seen.length
  values : ∀ (k : Nat) (n : Str) (v : V), s.seen[k]? = some (n, v) →
    ∃ p q, past = p ++ .me :: q ∧ aturns p = 3 * k + 2 ∧ lastValue (h ++ writes p) n = some v
  test : ∀ i, s.pc = .test i → i = s.seen.length ∧ aturns past = 3 * i
  name : ∀ i, s.pc = .name i → i = s.seen.length ∧ aturns past = 3 * i + 1 ∧ i < (definedNames (h ++ writes past)).length
  value : ∀ i n, s.pc = .value i n → i = s.seen.length ∧ aturns past = 3 * i + 2 ∧ (definedNames (h ++ writes past))[i]? = some n
  done : s.pc = .done → ∃ p q, past = p ++ .me :: q ∧ s.seen.map (·.1) = definedNames (h ++ writes p)

theorem AInv.start {l : NamedList V} {h : List (Str × V)} (r : NamedList.Rep l h) : AInv h [] (awalk l) :=
  ⟨by simpa [awalk, writes] using r, by simp [awalk], by simp [awalk], by simp [awalk],
    (by intro i e; cases e; exact ⟨rfl, rfl⟩), (by intro i e; cases e), (by intro i n e; cases e), (by intro e; cases e)⟩

theorem AInv.step {emptyV : V} {h : List (Str × V)} {past : List (AEv V)} {s : AWalk V} (i : AInv h past s) (e : AEv V) :
    AInv h (past ++ [e]) (s.step emptyV e) := by
  have hmore : ∀ (k : Nat) (n : Str) (v : V), s.seen[k]? = some (n, v) →
      ∃ p q, past ++ [e] = p ++ .me :: q ∧ aturns p = 3 * k + 2 ∧ lastValue (h ++ writes p) n = some v := by
    intro k n v hs
    obtain ⟨p, q, a, b, c⟩ := i.values k n v hs
    exact ⟨p, q ++ [e], by simp [a], b, c⟩
  have hdone : s.pc = .done → ∃ p q, past ++ [e] = p ++ .me :: q ∧ s.seen.map (·.1) = definedNames (h ++ writes p) := by
    intro hd
    obtain ⟨p, q, a, b⟩ := i.done hd
    exact ⟨p, q ++ [e], by simp [a], b⟩
  cases e with
  | set n v =>
    have hw : h ++ writes (past ++ [.set n v]) = (h ++ writes past) ++ [(n, v)] := by simp [writes_append, writes]
    have ht : aturns (past ++ [.set n v]) = aturns past := by simp [aturns_append, aturns]
    obtain ⟨l', hl, r'⟩ := i.rep.set n v
    obtain ⟨xs, hx⟩ := definedNames_grow (h ++ writes past) n v
    refine ⟨by simp only [AWalk.step, hl, hw]; exact r', ?_, ?_, hmore, ?_, ?_, ?_, hdone⟩
    · rw [hw, hx, List.length_append]; have := i.le; simp only [AWalk.step]; omega
    · rw [hw, hx]; simp only [AWalk.step]; rw [List.take_append_of_le_length i.le]; exact i.names
    · intro k e; rw [ht]; exact i.test k e
    · intro k e
      obtain ⟨a, b, c⟩ := i.name k e
      rw [ht, hw, hx, List.length_append]; exact ⟨a, b, by omega⟩
    · intro k m e
      obtain ⟨a, b, c⟩ := i.value k m e
      rw [ht, hw, hx]
      refine ⟨a, b, ?_⟩
      have hk : k < (definedNames (h ++ writes past)).length := (List.getElem?_eq_some_iff.1 c).1
      rw [List.getElem?_append_left hk]; exact c
  | me =>
    have ha : writes (past ++ [.me]) = writes past := by simp [writes_append, writes]
    have ht : aturns (past ++ [.me]) = aturns past + 1 := by simp [aturns_append, aturns]
    have hlen : s.list.items.length = (definedNames (h ++ writes past)).length := by rw [← i.rep.names_eq]; simp
    cases hp : s.pc with
    | test k =>
      obtain ⟨a, b⟩ := i.test k hp
      have es : s.step emptyV .me = { s with pc := if k < s.list.size then .name k else .done } := by simp [AWalk.step, hp]
      rw [es]
      refine ⟨by rw [ha]; exact i.rep, by rw [ha]; exact i.le, by rw [ha]; exact i.names, hmore, ?_, ?_, ?_, ?_⟩
      · intro j e; dsimp only at e; split at e <;> cases e
      · intro j e
        dsimp only at e; split at e <;> cases e
        rename_i hk
        exact ⟨a, by omega, by rw [ha, ← hlen]; exact hk⟩
      · intro j m e; dsimp only at e; split at e <;> cases e
      · intro e
        dsimp only at e; split at e
        · cases e
        · rename_i hk
          refine ⟨past, [], rfl, ?_⟩
          have := i.names
          have hle : (definedNames (h ++ writes past)).length ≤ s.seen.length := by simp only [NamedList.size] at hk; omega
          rwa [List.take_of_length_le hle] at this
    | name k =>
      obtain ⟨a, b, c⟩ := i.name k hp
      have es : s.step emptyV .me = { s with pc := .value k (s.list.nameAt k) } := by simp [AWalk.step, hp]
      rw [es]
      refine ⟨by rw [ha]; exact i.rep, by rw [ha]; exact i.le, by rw [ha]; exact i.names, hmore, (by intro j e; cases e), (by intro j e; cases e), ?_,
        (by intro e; cases e)⟩
      intro j m e
      cases e
      refine ⟨a, by omega, ?_⟩
      rw [ha, ← i.rep.names_eq]
      have hk : k < s.list.items.length := by omega
      simp [NamedList.nameAt, hk]
    | value k m =>
      obtain ⟨a, b, c⟩ := i.value k m hp
      have es : s.step emptyV .me = { s with pc := .test (k + 1), seen := s.seen ++ [(m, s.list.getAt emptyV k)] } := by simp [AWalk.step, hp]
      have hk : k < s.list.items.length := by rw [hlen]; exact (List.getElem?_eq_some_iff.1 c).1
      have hm : s.list.items[k].1 = m := by
        have := c; rw [← i.rep.names_eq] at this; simpa [hk] using this
      have hv : lastValue (h ++ writes past) m = some (s.list.getAt emptyV k) := by
        have := i.rep.value k s.list.items[k] (by simp [hk])
        rw [hm] at this
        simpa [NamedList.getAt, hk] using this
      rw [es]
      refine ⟨by rw [ha]; exact i.rep, ?_, ?_, ?_, ?_, (by intro j e; cases e), (by intro j n e; cases e), (by intro e; cases e)⟩
      · rw [ha, ← hlen]; simp; omega
      · rw [ha]
        simp only [List.length_append, List.length_singleton]
        rw [← a, List.take_add_one, c]
        simp only [Option.toList_some, List.map_append, List.map_cons, List.map_nil]
        rw [i.names, ← a]
      · intro j n v hs
        by_cases hj : j < s.seen.length
        · exact hmore j n v (by simpa [List.getElem?_append_left hj] using hs)
        · dsimp only at hs
          rw [List.getElem?_append_right (by omega)] at hs
          have : j = k := by
            have := (List.getElem?_eq_some_iff.1 hs).1
            simp at this; omega
          subst this
          rw [a, Nat.sub_self] at hs
          simp at hs
          obtain ⟨rfl, rfl⟩ := hs
          exact ⟨past, [], rfl, b, by rw [← a]; exact hv⟩
      · intro j e
        cases e
        exact ⟨by simp [a], by omega⟩
    | done =>
      have es : s.step emptyV .me = s := by simp [AWalk.step, hp]
      rw [es]
      exact ⟨by rw [ha]; exact i.rep, by rw [ha]; exact i.le, by rw [ha]; exact i.names, hmore, (by rw [hp]; nofun), (by rw [hp]; nofun), (by rw [hp]; nofun), hdone⟩

theorem AInv.run {emptyV : V} {h : List (Str × V)} (es : List (AEv V)) : ∀ {past : List (AEv V)} {s : AWalk V}, AInv h past s →
    AInv h (past ++ es) (s.run emptyV es) := by
  induction es with
  | nil => intro past s i; rw [List.append_nil]; exact i
  | cons e es ih => intro past s i; have := ih (i.step (emptyV := emptyV) e); simpa [AWalk.run] using this

end Rtti.IndexLoop
