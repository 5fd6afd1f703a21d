import Verif.Props.Faults
/-! C66: the lists after any pattern of failures, exactly. -/
set_option autoImplicit false
namespace Rtti.Props
open Spec
variable {V : Type}

private theorem runF_snoc (l : NamedList V) (h : List (Fault × Str × V)) (f : Fault) (n : Str) (v : V) :
    let r := l.runF h
    let c := r.1.setF f n v
    l.runF (h ++ [(f, n, v)]) = (c.1, match c.2 with
      | .ok => (r.2.1 ++ [(n, v)], r.2.2)
      | .threw k => (r.2.1, r.2.2 + k)) := by
  induction h generalizing l with
  | nil =>
    simp only [List.nil_append, NamedList.runF]
    rcases l.setF f n v with ⟨l', _ | k⟩ <;> simp
  | cons x h ih =>
    obtain ⟨f', n', v'⟩ := x
    simp only [List.cons_append, NamedList.runF]
    rcases l.setF f' n' v' with ⟨l', _ | k⟩
    · simp only [ih l']
      generalize (l'.runF h).1.setF f n v = c
      rcases c with ⟨c, _ | k⟩ <;> rfl
    · simp only [ih l']
      generalize (l'.runF h).1.setF f n v = c
      rcases c with ⟨c, _ | k'⟩ <;> simp [Nat.add_assoc]

private theorem last_set {l : NamedList V} (hb : ∀ n i, l.names n = some i → i < l.items.length)
    (hl : ∀ n i j v, l.names n = some i → l.items[j]? = some (n, v) → j ≤ i) (f : Fault) (n : Str) (v : V) :
    (∀ m i, (l.setF f n v).1.names m = some i → i < (l.setF f n v).1.items.length) ∧
    ∀ m i j x, (l.setF f n v).1.names m = some i → (l.setF f n v).1.items[j]? = some (m, x) → j ≤ i := by
  have hgrow : ∀ (m : Str) (i : Nat) (j : Nat) (x : V), m ≠ n → l.names m = some i → (l.items ++ [(n, v)])[j]? = some (m, x) → j ≤ i := by
    intro m i j x hm hi hj
    rw [List.getElem?_append] at hj
    split at hj
    · exact hl m i j x hi hj
    · rename_i hlt
      cases hd : j - l.items.length with
      | zero => rw [hd] at hj; simp at hj; exact absurd hj.1.symm hm
      | succ k => rw [hd] at hj; simp at hj
  unfold NamedList.setF
  by_cases hn : n = []
  · rw [if_pos hn]; exact ⟨hb, hl⟩
  · rw [if_neg hn]
    cases hx : l.names n with
    | none =>
      have key : (∀ m i, (if m = n then some ((l.items ++ [(n, v)]).length - 1) else l.names m) = some i → i < (l.items ++ [(n, v)]).length) ∧
          ∀ (m : Str) (i j : Nat) (x : V), (if m = n then some ((l.items ++ [(n, v)]).length - 1) else l.names m) = some i →
            (l.items ++ [(n, v)])[j]? = some (m, x) → j ≤ i := by
        refine ⟨fun m i h => ?_, fun m i j x h hj => ?_⟩
        · split at h
          · cases h; simp
          · have := hb m i h; simp; omega
        · split at h
          · cases h
            have := (List.getElem?_eq_some_iff.1 hj).1
            omega
          · rename_i hm
            exact hgrow m i j x hm h hj
      cases f with
      | object => exact ⟨hb, hl⟩
      | grow => exact ⟨hb, hl⟩
      | index =>
        refine ⟨fun m i h => ?_, fun m i j x h hj => hgrow m i j x (fun e => by subst e; rw [hx] at h; cases h) h hj⟩
        have := hb m i h
        simp; omega
      | none => exact key
      | assign => exact key
    | some i =>
      dsimp only
      cases hi : l.items[i]? with
      | none => exact ⟨hb, hl⟩
      | some item =>
        dsimp only
        split
        · exact ⟨hb, hl⟩
        · refine ⟨fun m k h => ?_, fun m k j x h hj => ?_⟩
          · have := hb m k h; simpa using this
          · by_cases hij : i = j
            · subst hij
              rw [List.getElem?_set_self (List.getElem?_eq_some_iff.1 hi).1] at hj
              cases hj
              exact hl _ k i item.2 h hi
            · rw [List.getElem?_set_ne hij] at hj
              exact hl m k j x h hj

private theorem last_run {l : NamedList V} (hb : ∀ n i, l.names n = some i → i < l.items.length)
    (hl : ∀ n i j v, l.names n = some i → l.items[j]? = some (n, v) → j ≤ i) (h : List (Fault × Str × V)) (n : Str) (i j : Nat) (v : V)
    (hi : (l.runF h).1.names n = some i) (hj : (l.runF h).1.items[j]? = some (n, v)) : j ≤ i := by
  induction h generalizing l with
  | nil => exact hl n i j v hi hj
  | cons x h ih =>
    obtain ⟨f, m, x⟩ := x
    have hs := last_set hb hl f m x
    have hc : (l.runF ((f, m, x) :: h)).1 = ((l.setF f m x).1.runF h).1 := by
      simp only [NamedList.runF]
      rcases l.setF f m x with ⟨l', _ | k⟩ <;> rfl
    rw [hc] at hi hj
    exact ih hs.1 hs.2 hi hj

/-- What one more call does to the attributes enumerated, after any history of calls of which some failed: a new name gets one more item unless the
    object or the list has no memory (also if the index has none: then it is an item that cannot be found); a known name gets the value at the last item
    of that name; nothing else changes. Only the list that cannot grow loses an object. -/
theorem C66_attributes_exact (h : List (Fault × Str × V)) (f : Fault) (n : Str) (v : V) :
    let r := (NamedList.empty : NamedList V).runF h
    let r' := (NamedList.empty : NamedList V).runF (h ++ [(f, n, v)])
    (n = [] → r'.1.items = r.1.items) ∧
    (n ≠ [] → lastValue r.2.1 n = none → r'.1.items = r.1.items ++ (if f = .object ∨ f = .grow then [] else [(n, v)])) ∧
    (n ≠ [] → ∀ x, lastValue r.2.1 n = some x → ∃ i, r.1.items[i]? = some (n, x) ∧ (∀ j y, r.1.items[j]? = some (n, y) → j ≤ i) ∧
      r'.1.items = if f = .assign then r.1.items else r.1.items.set i (n, v)) ∧
    r'.2.2 = r.2.2 + (if n ≠ [] ∧ lastValue r.2.1 n = none ∧ f = .grow then 1 else 0) := by
  intro r r'
  have hr : NamedList.RepF r.1 r.2.1 := by
    have := (NamedList.RepF.empty (V := V)).runF h
    rwa [List.nil_append] at this
  have hlast : ∀ i, r.1.names n = some i → ∀ j y, r.1.items[j]? = some (n, y) → j ≤ i := fun i hi j y hj =>
    last_run (by simp [NamedList.empty]) (by simp [NamedList.empty]) h n i j y hi hj
  have hs : r' = ((r.1.setF f n v).1, match (r.1.setF f n v).2 with
      | .ok => (r.2.1 ++ [(n, v)], r.2.2)
      | .threw k => (r.2.1, r.2.2 + k)) := runF_snoc NamedList.empty h f n v
  clear_value r r'
  subst hs
  dsimp only
  unfold NamedList.setF
  by_cases hn : n = []
  · simp [hn]
  · cases hx : r.1.names n with
    | none =>
      have hl := hr.missing n hn hx
      cases f <;> simp [hn, hl]
    | some i =>
      obtain ⟨_, x, b, c⟩ := hr.found n i hx
      simp only [b, hn, c]
      refine ⟨fun h => h.elim, fun _ h => (by cases h), fun _ y hy => ?_, ?_⟩
      · cases hy
        refine ⟨i, b, hlast i hx, ?_⟩
        by_cases hf : f = .assign <;> simp [hf]
      · by_cases hf : f = .assign <;> simp [hf]

example : ((NamedList.empty : NamedList Nat).runF [(.index, ['a'], 1), (.none, ['a'], 2), (.none, ['b'], 3), (.none, ['a'], 4), (.assign, ['a'], 5)]).1.items =
    [(['a'], 1), (['a'], 4), (['b'], 3)] := by decide

private theorem addF_runF_snoc (l : ItemList) (h : List (Fault × Item)) (f : Fault) (v : Item) :
    l.runF (h ++ [(f, v)]) = (((l.runF h).1.addF f v).1, if ((l.runF h).1.addF f v).2.1 then (l.runF h).2 ++ [v] else (l.runF h).2) := by
  induction h generalizing l with
  | nil => simp only [List.nil_append, ItemList.runF]; rfl
  | cons x h ih =>
    simp only [List.cons_append, ItemList.runF, ih]
    split <;> split <;> rfl

/-- What one more call does to the members enumerated, after any history of calls of which some failed: the member is added at the end unless it is
    there, its name is that of a member added by a call that returned, or the list cannot grow. It counts as added, and is found, unless the index has no
    room. -/
theorem C66_members_exact (h : List (Fault × Item)) (f : Fault) (v : Item) :
    let r := ItemList.empty.runF h
    let r' := ItemList.empty.runF (h ++ [(f, v)])
    let new := (∀ it ∈ r.1.items, it.ptr ≠ v.ptr) ∧ (∀ it ∈ r.2, it.name ≠ v.name) ∧ f ≠ .grow
    (new → r'.1.items = r.1.items ++ [v] ∧ r'.2 = r.2 ++ (if f = .index then [] else [v])) ∧
    (¬new → r'.1.items = r.1.items ∧ r'.2 = r.2) := by
  intro r r' new
  have hr : ItemList.RepF r.1 r.2 := by
    have := ItemList.RepF.empty.runF h
    rwa [List.nil_append] at this
  have hs : r' = ((r.1.addF f v).1, if (r.1.addF f v).2.1 then r.2 ++ [v] else r.2) := addF_runF_snoc ItemList.empty h f v
  have h1 : (r.1.items.any fun it => v.ptr == it.ptr) = false ↔ ∀ it ∈ r.1.items, it.ptr ≠ v.ptr := by
    rw [List.any_eq_false]
    exact ⟨fun h it hi e => h it hi (by simp [e]), fun h it hi e => h it hi (by simpa using Eq.symm (by simpa using e : v.ptr = it.ptr))⟩
  have h2 : (r.1.names v.name).isSome = false ↔ ∀ it ∈ r.2, it.name ≠ v.name := by
    constructor
    · intro e it hi hn
      obtain ⟨i, h3, _⟩ := hr.has it hi
      rw [hn] at h3; rw [h3] at e; cases e
    · intro e
      cases hx : r.1.names v.name with
      | none => rfl
      | some i =>
        obtain ⟨it, _, h3, h4⟩ := hr.found _ _ hx
        exact absurd h3 (e it h4)
  rw [hs]
  unfold ItemList.addF
  dsimp only [new]
  rw [← h1, ← h2]
  cases (r.1.items.any fun it => v.ptr == it.ptr) <;> cases (r.1.names v.name).isSome <;> cases f <;> simp

example : (ItemList.empty.runF [(.none, ⟨2, ['a']⟩), (.index, ⟨5, ['c']⟩), (.none, ⟨6, ['c']⟩), (.index, ⟨7, ['c']⟩), (.grow, ⟨8, ['d']⟩)]) =
    ((ItemList.empty.runF [(.none, ⟨2, ['a']⟩), (.index, ⟨5, ['c']⟩), (.none, ⟨6, ['c']⟩), (.index, ⟨7, ['c']⟩), (.grow, ⟨8, ['d']⟩)]).1,
      [⟨2, ['a']⟩, ⟨6, ['c']⟩]) ∧
    (ItemList.empty.runF [(.none, ⟨2, ['a']⟩), (.index, ⟨5, ['c']⟩), (.none, ⟨6, ['c']⟩), (.index, ⟨7, ['c']⟩), (.grow, ⟨8, ['d']⟩)]).1.items =
      [⟨2, ['a']⟩, ⟨5, ['c']⟩, ⟨6, ['c']⟩] := ⟨rfl, rfl⟩

/-- Running out of memory in the index changes one thing: the container lists one more item, which its index does not know. Types, all other lists
    and all other items are as they were, so the call can be repeated and then makes a second item of that name (`C66_duplicate_false`). -/
theorem C66_create_index (w : World) (owner : Ptr) (ho : owner ≠ w.next) (k : Cat) (name : Str) (t : Nat)
    (look : World → Res (Option Ptr)) (stored : World → Ptr → World)
    (h : (w.getOrCreateF .index owner k name t look stored).2 = none) :
    let w' := (w.getOrCreateF .index owner k name t look stored).1
    w'.metaClass = w.metaClass ∧ w'.valid = w.valid ∧
    (w'.cont owner k).items = (w.cont owner k).items ++ [⟨w.next, name⟩] ∧ (w'.cont owner k).names = (w.cont owner k).names ∧
    (∀ c k', c ≠ w.next → (c ≠ owner ∨ k' ≠ k) → w'.cont c k' = w.cont c k') ∧
    ∀ c, c ≠ w.next → w'.kind c = w.kind c ∧ w'.name c = w.name c ∧ w'.owner c = w.owner c ∧ w'.cls c = w.cls c := by
  revert h
  unfold World.getOrCreateF
  cases look w with
  | val o =>
    cases o with
    | some p => intro h; cases h
    | none =>
      have hc : (w.alloc k name owner t).cont owner = w.cont owner := by simp [World.alloc, upd, ho]
      simp only [hc]
      unfold ItemList.addF
      dsimp only
      rw [if_neg (show Fault.index ≠ Fault.object by decide)]
      by_cases hn : (!((w.cont owner k).items.any fun it => w.next == it.ptr) && !((w.cont owner k).names name).isSome) = true
      rotate_left
      · simp only [hn, if_false]
        intro h; cases h
      · intro _
        simp only [hn, if_true]
        refine ⟨rfl, rfl, by simp [upd], by simp [upd], fun c k' hc hk => ?_, fun c hc => by simp [World.alloc, upd, hc]⟩
        by_cases hco : c = owner
        · subst hco
          have hk' : k' ≠ k := by rcases hk with h | h; exact absurd rfl h; exact h
          simp [upd, hk', hc]
        · simp [World.alloc, upd, hco, hc]
  | throw e => intro h; cases h
  | ub => intro h; cases h
  | diverge => intro h; cases h

example : (World.init.createNamespaceF .index 1 ['N']).2 = none ∧ (1 : Ptr) ≠ World.init.next := by decide

end Rtti.Props
