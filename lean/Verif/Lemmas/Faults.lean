import Verif.Model.Faults
import Verif.Lemmas.ItemList
import Verif.Lemmas.World
/-! Invariants of the lists when allocations fail. -/
set_option autoImplicit false
namespace Rtti
open Spec

namespace NamedList
variable {V : Type}

/-- `h`: the calls that returned -/
structure RepF (l : NamedList V) (h : List (Str × V)) : Prop where
  found : ∀ n i, l.names n = some i → n ≠ [] ∧ ∃ v, l.items[i]? = some (n, v) ∧ lastValue h n = some v
  missing : ∀ n, n ≠ [] → l.names n = none → lastValue h n = none
  sub : (definedNames h).Sublist (l.items.map (·.1))

theorem RepF.empty : RepF (NamedList.empty : NamedList V) [] :=
  ⟨fun _ _ h => by simp [NamedList.empty] at h, fun _ _ _ => rfl, by simp [definedNames, NamedList.empty]⟩

theorem mem_of_lastValue {h : List (Str × V)} {n : Str} (hn : n ≠ []) : n ∈ definedNames h ↔ lastValue h n ≠ none := by
  rw [mem_definedNames]
  unfold lastValue
  simp only [ne_eq, hn, not_false_eq_true, true_and, List.getLast?_eq_none_iff, List.map_eq_nil_iff, List.filter_eq_nil_iff]
  simp

theorem RepF.append {l : NamedList V} {h : List (Str × V)} (r : RepF l h) (p : Str × V) : RepF { l with items := l.items ++ [p] } h := by
  refine ⟨fun n i e => ?_, r.missing, ?_⟩
  · obtain ⟨a, v, b, c⟩ := r.found n i e
    refine ⟨a, v, ?_, c⟩
    rw [List.getElem?_append_left (List.getElem?_eq_some_iff.1 b).1]
    exact b
  · rw [List.map_append]
    exact r.sub.trans (List.sublist_append_left _ _)

theorem RepF.setF {l : NamedList V} {h : List (Str × V)} (r : RepF l h) (f : Fault) (n : Str) (v : V) :
    RepF (l.setF f n v).1 (if (l.setF f n v).2 = .ok then h ++ [(n, v)] else h) := by
  unfold NamedList.setF
  by_cases hn : n = []
  · rw [if_pos hn]
    simp only [if_true]
    refine ⟨fun m i e => ?_, fun m hm e => ?_, ?_⟩
    · obtain ⟨a, x, b, c⟩ := r.found m i e
      refine ⟨a, x, b, ?_⟩
      rw [lastValue_snoc, if_neg (by rw [hn]; exact a), c]
    · rw [lastValue_snoc, if_neg (by rw [hn]; exact hm)]; exact r.missing m hm e
    · rw [definedNames_snoc, if_pos (.inl hn)]; exact r.sub
  · rw [if_neg hn]
    cases hx : l.names n with
    | none =>
      have hnew : n ∉ definedNames h := fun h' => (mem_of_lastValue hn).1 h' (r.missing n hn hx)
      have key : RepF (⟨l.items ++ [(n, v)], fun m => if m = n then some ((l.items ++ [(n, v)]).length - 1) else l.names m⟩ : NamedList V)
          (h ++ [(n, v)]) := by
        refine ⟨fun m i e => ?_, fun m hm e => ?_, ?_⟩
        · by_cases hm : m = n
          · subst hm
            simp only [if_true, Option.some.injEq] at e
            subst e
            exact ⟨hn, v, by simp, by rw [lastValue_snoc, if_pos rfl]⟩
          · simp only [hm, if_false] at e
            obtain ⟨a, x, b, c⟩ := r.found m i e
            refine ⟨a, x, ?_, ?_⟩
            · rw [List.getElem?_append_left (List.getElem?_eq_some_iff.1 b).1]; exact b
            · rw [lastValue_snoc, if_neg hm]; exact c
        · by_cases hmn : m = n
          · simp [hmn] at e
          · simp only [hmn, if_false] at e
            rw [lastValue_snoc, if_neg hmn]; exact r.missing m hm e
        · rw [definedNames_snoc, if_neg (by simp [hn, hnew]), List.map_append]
          exact List.Sublist.append r.sub (List.Sublist.refl _)
      cases f with
      | object => simpa using r
      | grow => simpa using r
      | index => simpa using r.append (n, v)
      | none => simpa using key
      | assign => simpa using key
    | some i =>
      obtain ⟨a, x, b, c⟩ := r.found n i hx
      simp only [b]
      split
      · simpa using r
      · simp only [if_true]
        refine ⟨fun m j e => ?_, fun m hm e => ?_, ?_⟩
        · obtain ⟨a', x', b', c'⟩ := r.found m j e
          by_cases hij : i = j
          · subst hij
            rw [b] at b'
            cases b'
            refine ⟨a, v, ?_, by rw [lastValue_snoc, if_pos rfl]⟩
            rw [List.getElem?_set_self (List.getElem?_eq_some_iff.1 b).1]
          · refine ⟨a', x', ?_, ?_⟩
            · rw [List.getElem?_set_ne hij]; exact b'
            · rw [lastValue_snoc, if_neg]
              · exact c'
              · intro hm; subst hm
                rw [hx] at e; cases e; exact hij rfl
        · rw [lastValue_snoc, if_neg]
          · exact r.missing m hm e
          · intro hm'; subst hm'; rw [hx] at e; cases e
        · have hmem : n ∈ definedNames h := (mem_of_lastValue hn).2 (by rw [c]; simp)
          rw [definedNames_snoc, if_pos (.inr hmem)]
          have : (l.items.set i (n, v)).map (·.1) = l.items.map (·.1) := by
            rw [List.map_set]
            apply List.ext_getElem?
            intro j
            by_cases hij : i = j
            · subst hij
              rw [List.getElem?_set_self (by simpa using (List.getElem?_eq_some_iff.1 b).1)]
              simp [b]
            · rw [List.getElem?_set_ne hij]
          rw [this]; exact r.sub

theorem RepF.runF {l : NamedList V} (h : List (Fault × Str × V)) {d : List (Str × V)} (r : RepF l d) :
    RepF (l.runF h).1 (d ++ (l.runF h).2.1) := by
  induction h generalizing l d with
  | nil => simpa [NamedList.runF] using r
  | cons c h ih =>
    obtain ⟨f, n, v⟩ := c
    have hs := r.setF f n v
    unfold NamedList.runF
    cases e : l.setF f n v with
    | mk l' o =>
      rw [e] at hs
      cases o with
      | ok =>
        simp only [if_true] at hs
        simpa using ih hs
      | threw k =>
        have hs : RepF l' d := by simpa using hs
        exact ih hs

/-- without a failing index the invariant is that of `Lemmas/NamedList.lean` -/
theorem Rep.setF {l : NamedList V} {h : List (Str × V)} (r : Rep l h) {f : Fault} (hf : f ≠ .index) (n : Str) (v : V) :
    Rep (l.setF f n v).1 (if (l.setF f n v).2 = .ok then h ++ [(n, v)] else h) := by
  obtain ⟨l', e, hr⟩ := r.set n v
  unfold NamedList.setF
  unfold NamedList.set at e
  split
  · rename_i hn
    rw [if_pos hn] at e; cases e
    simpa using hr
  · rename_i hn
    rw [if_neg hn] at e
    cases hx : l.names n with
    | none =>
      rw [hx] at e; cases e
      cases f with
      | object => simpa using r
      | grow => simpa using r
      | index => exact absurd rfl hf
      | none => simpa using hr
      | assign => simpa using hr
    | some i =>
      rw [hx] at e
      cases hi : l.items[i]? with
      | none => simp [hi] at e
      | some item =>
        simp only [hi] at e ⊢
        cases e
        split
        · simpa using r
        · simpa using hr

theorem Rep.runF {l : NamedList V} (h : List (Fault × Str × V)) (hf : ∀ c ∈ h, c.1 ≠ .index) {d : List (Str × V)} (r : Rep l d) :
    Rep (l.runF h).1 (d ++ (l.runF h).2.1) := by
  induction h generalizing l d with
  | nil => simpa [NamedList.runF] using r
  | cons c h ih =>
    obtain ⟨f, n, v⟩ := c
    have hs := r.setF (hf _ (List.mem_cons_self ..)) n v
    have hf' : ∀ c ∈ h, c.1 ≠ .index := fun c hc => hf c (List.mem_cons_of_mem _ hc)
    unfold NamedList.runF
    dsimp only at hs
    cases e : l.setF f n v with
    | mk l' o =>
      rw [e] at hs
      cases o with
      | ok =>
        simp only [if_true] at hs
        simpa using ih hf' hs
      | threw k =>
        have hs : Rep l' d := by simpa using hs
        exact ih hf' hs

end NamedList

namespace ItemList

theorem addF_none (l : ItemList) (v : Item) : l.addF .none v = ((l.add (some v)).1, (l.add (some v)).2, .ok) := by
  unfold ItemList.addF ItemList.add
  dsimp only
  split <;> rfl

theorem addF_threw {l l' : ItemList} {v : Item} {f : Fault} (hf : f ≠ .index) {b : Bool} {k : Nat}
    (h : l.addF f v = (l', b, .threw k)) : l = l' := by
  unfold ItemList.addF at h
  dsimp only at h
  split at h
  · cases f with
    | index => exact absurd rfl hf
    | grow => cases h; rfl
    | none => cases h
    | object => cases h
    | assign => cases h
  · cases h

/-- `a`: the items accepted by calls that returned -/
structure RepF (l : ItemList) (a : List Item) : Prop where
  found : ∀ n i, l.names n = some i → ∃ it, l.items[i]? = some it ∧ it.name = n ∧ it ∈ a
  has : ∀ it ∈ a, ∃ i, l.names it.name = some i ∧ l.items[i]? = some it
  sub : a.Sublist l.items

theorem RepF.empty : RepF ItemList.empty [] := ⟨fun _ _ h => by simp [ItemList.empty] at h, fun _ h => by simp at h, by simp⟩

theorem RepF.addF {l : ItemList} {a : List Item} (r : RepF l a) (f : Fault) (v : Item) :
    RepF (l.addF f v).1 (if (l.addF f v).2.1 then a ++ [v] else a) := by
  unfold ItemList.addF
  dsimp only
  split
  · rename_i hc
    simp only [Bool.and_eq_true, Bool.not_eq_true'] at hc
    have hnone : l.names v.name = none := by simpa using hc.2
    have happ : RepF { l with items := l.items ++ [v] } a := by
      refine ⟨fun n i e => ?_, fun it hi => ?_, r.sub.trans (List.sublist_append_left _ _)⟩
      · obtain ⟨it, h1, h2⟩ := r.found n i e
        exact ⟨it, by rw [List.getElem?_append_left (List.getElem?_eq_some_iff.1 h1).1]; exact h1, h2⟩
      · obtain ⟨i, h1, h2⟩ := r.has it hi
        exact ⟨i, h1, by rw [List.getElem?_append_left (List.getElem?_eq_some_iff.1 h2).1]; exact h2⟩
    have key : RepF ⟨l.items ++ [v], fun n => if n = v.name then some l.items.length else l.names n⟩ (a ++ [v]) := by
      refine ⟨fun n i e => ?_, fun it hi => ?_, List.Sublist.append r.sub (List.Sublist.refl _)⟩
      · by_cases hn : n = v.name
        · simp only [hn, if_true, Option.some.injEq] at e
          subst e
          exact ⟨v, by simp, hn.symm, by simp⟩
        · simp only [hn, if_false] at e
          obtain ⟨it, h1, h2, h3⟩ := r.found n i e
          exact ⟨it, by rw [List.getElem?_append_left (List.getElem?_eq_some_iff.1 h1).1]; exact h1, h2, by simp [h3]⟩
      · rcases List.mem_append.1 hi with hi | hi
        · obtain ⟨i, h1, h2⟩ := r.has it hi
          refine ⟨i, ?_, by rw [List.getElem?_append_left (List.getElem?_eq_some_iff.1 h2).1]; exact h2⟩
          dsimp only
          rw [if_neg]
          · exact h1
          · intro hn; rw [hn, hnone] at h1; cases h1
        · simp only [List.mem_singleton] at hi
          subst hi
          exact ⟨l.items.length, by simp, by simp⟩
    cases f with
    | grow => simpa using r
    | index => simpa using happ
    | object => simpa using key
    | none => simpa using key
    | assign => simpa using key
  · simpa using r

theorem RepF.runF {l : ItemList} (h : List (Fault × Item)) {a : List Item} (r : RepF l a) :
    RepF (l.runF h).1 (a ++ (l.runF h).2) := by
  induction h generalizing l a with
  | nil => simpa [ItemList.runF] using r
  | cons c h ih =>
    obtain ⟨f, v⟩ := c
    have hs := ih (r.addF f v)
    unfold ItemList.runF
    dsimp only
    split
    · rename_i hc; rw [if_pos hc] at hs; simpa using hs
    · rename_i hc; rw [if_neg hc] at hs; exact hs

theorem runF_items {l : ItemList} (h : List (Fault × Item)) (hf : ∀ c ∈ h, c.1 ≠ .index) :
    (l.runF h).1.items = l.items ++ (l.runF h).2 := by
  induction h generalizing l with
  | nil => simp [ItemList.runF]
  | cons c h ih =>
    obtain ⟨f, v⟩ := c
    have hf' : ∀ c ∈ h, c.1 ≠ .index := fun c hc => hf c (List.mem_cons_of_mem _ hc)
    have h1 : (l.addF f v).1.items = if (l.addF f v).2.1 then l.items ++ [v] else l.items := by
      unfold ItemList.addF
      dsimp only
      split
      · have := hf _ (List.mem_cons_self ..)
        cases f <;> simp at this ⊢
      · simp
    unfold ItemList.runF
    dsimp only
    rw [ih hf', h1]
    split <;> simp

end ItemList

/-- when `getOrCreateF` with a look-up by name throws -/
theorem createF_none_iff {rank : Nat → Nat} {w : World} (i : World.Inv rank w) (f : Fault) (owner : Ptr) (k : Cat) (name : Str) (t : Nat)
    (hn : name ≠ []) (stored : World → Ptr → World) :
    (w.getOrCreateF f owner k name t (fun w => w.getItem owner k name) stored).2 = none ↔
      w.getItem owner k name = .val none ∧ (f = .object ∨ f = .grow ∨ f = .index) := by
  unfold World.getOrCreateF
  dsimp only
  cases hg : w.getItem owner k name with
  | val o =>
    cases o with
    | some p => simp
    | none =>
      have hc : w.isContainer owner = true := by
        unfold World.getItem at hg
        split at hg
        · assumption
        · cases hg
      have hne : owner ≠ w.next := by
        intro e
        unfold World.isContainer at hc
        cases hk : w.kind owner with
        | none => simp [hk] at hc
        | some q => exact absurd (i.kind_lt _ _ hk).2 (by omega)
      have hcont : (w.alloc k name owner t).cont owner = w.cont owner := by simp [World.alloc, upd, hne]
      have hnone : ((w.cont owner k).names name).isSome = false := by
        have h1 : (w.cont owner k).get name = none := by
          unfold World.getItem at hg
          rw [if_pos hc] at hg
          cases hx : (w.cont owner k).get name with
          | none => rfl
          | some x => rw [hx] at hg; cases hg
        cases hs : ((w.cont owner k).names name).isSome with
        | false => rfl
        | true =>
          obtain ⟨x, hx, e⟩ := ((i.wf owner k).names_isSome name).1 hs
          rcases ((i.wf owner k).get_none name).1 h1 with h | h
          · exact absurd h hn
          · exact absurd e (h x hx)
      have hany : ((w.cont owner k).items.any fun it => w.next == it.ptr) = false := by
        rw [List.any_eq_false]
        intro x hx e
        have := (i.kind_lt _ _ (i.items _ _ x hx).2.1).2
        simp at e; omega
      rw [hcont]
      unfold ItemList.addF
      dsimp only
      rw [hnone, hany]
      cases f <;> simp
  | throw e => simp
  | ub => simp
  | diverge => simp

end Rtti
