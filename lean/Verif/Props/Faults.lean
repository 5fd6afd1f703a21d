import Verif.Lemmas.Faults
import Verif.Lemmas.WorldStep
/-! C66: attributes and members when allocations fail. -/
set_option autoImplicit false
namespace Rtti.Props
open Spec
variable {V : Type}

/-- Whatever failed, looking up an attribute gives the value of the last call that returned, and every attribute set by
    such a call is enumerated, in order of first definition. -/
theorem C66_attributes (h : List (Fault × Str × V)) (e : V) :
    let r := (NamedList.empty : NamedList V).runF h
    (∀ n, r.1.get e n = if n = [] then e else (lastValue r.2.1 n).getD e) ∧
    (definedNames r.2.1).Sublist (r.1.items.map (·.1)) := by
  intro r
  have hr := (NamedList.RepF.empty (V := V)).runF h
  rw [List.nil_append] at hr
  refine ⟨fun n => ?_, hr.sub⟩
  unfold NamedList.get
  split
  · rfl
  · rename_i hn
    cases hx : r.1.names n with
    | none => simp only; rw [hr.missing n hn hx]; rfl
    | some i =>
      obtain ⟨_, v, h1, h2⟩ := hr.found n i hx
      simp only
      rw [h2]
      obtain ⟨h3, h4⟩ := List.getElem?_eq_some_iff.1 h1
      rw [dif_pos h3, h4]
      rfl

/-- As long as no entry of the index fails, failed calls leave no trace: the list is exactly that of the calls that
    returned. (Missing: failing index entries, see `C66_index_false`.) -/
theorem C66_attributes_untouched_partial (h : List (Fault × Str × V)) (hf : ∀ c ∈ h, c.1 ≠ .index) :
    let r := (NamedList.empty : NamedList V).runF h
    r.1.items.map (·.1) = definedNames r.2.1 ∧ ∀ (i : Nat) (p : Str × V), r.1.items[i]? = some p → lastValue r.2.1 p.1 = some p.2 := by
  have hr := (NamedList.Rep.empty (V := V)).runF h hf
  rw [List.nil_append] at hr
  exact ⟨hr.names_eq, hr.value⟩

example : ((NamedList.empty : NamedList Nat).runF
    [(.none, ['a'], 1), (.grow, ['b'], 2), (.assign, ['a'], 3), (.none, ['b'], 4), (.object, ['b'], 5)]).1.items = [(['a'], 1), (['b'], 5)] := by decide

/-- Setting an attribute throws exactly when it gets to the allocation that fails: a new name needs the object, room in the
    list and an entry of the index, a known one the copy that is assigned. Only the list that cannot grow loses an object. -/
theorem C66_attribute_throws_iff (h : List (Fault × Str × V)) (f : Fault) (n : Str) (v : V) (k : Nat) :
    let r := (NamedList.empty : NamedList V).runF h
    (r.1.setF f n v).2 = .threw k ↔ n ≠ [] ∧
      (lastValue r.2.1 n = none ∧ (f = .object ∧ k = 0 ∨ f = .grow ∧ k = 1 ∨ f = .index ∧ k = 0) ∨
       lastValue r.2.1 n ≠ none ∧ f = .assign ∧ k = 0) := by
  intro r
  have hr := (NamedList.RepF.empty (V := V)).runF h
  rw [List.nil_append] at hr
  change NamedList.RepF r.1 r.2.1 at hr
  unfold NamedList.setF
  by_cases hn : n = []
  · simp [hn]
  · rw [if_neg hn]
    cases hx : r.1.names n with
    | none =>
      have := hr.missing n hn hx
      rw [this]
      cases f <;> simp [hn, eq_comm]
    | some i =>
      obtain ⟨_, v', h1, h2⟩ := hr.found n i hx
      simp only [h1, h2]
      cases f <;> simp [hn, eq_comm]

example : ((NamedList.empty : NamedList Nat).runF [(.none, ['a'], 1)]).1.setF .assign ['a'] 2 =
    (((NamedList.empty : NamedList Nat).runF [(.none, ['a'], 1)]).1, .threw 0) := rfl

/-- A failing index entry leaves the attribute in the list but not under its name; setting it again makes a second one
    of the same name. -/
theorem C66_index_false :
    let r := (NamedList.empty : NamedList Nat).runF [(.index, ['a'], 1)]
    r.2.1 = [] ∧ r.1.size = 1 ∧ r.1.nameAt 0 = ['a'] ∧ r.1.get 0 ['a'] = 0 ∧
    ((r.1.setF .none ['a'] 2).1.items = [(['a'], 1), (['a'], 2)]) := by decide

/-- A vector that cannot grow loses the object made for it. -/
theorem C66_leak_false : ((NamedList.empty : NamedList Nat).runF [(.grow, ['a'], 1)]).2.2 = 1 := by decide

/-- Whatever failed, a member is found by name exactly if it was added by a call that returned, and all those are
    enumerated, in order. -/
theorem C66_members (h : List (Fault × Item)) :
    let r := ItemList.empty.runF h
    (∀ n it, r.1.get n = some it ↔ n ≠ [] ∧ it ∈ r.2 ∧ it.name = n) ∧ r.2.Sublist r.1.items := by
  intro r
  have hr := ItemList.RepF.empty.runF h
  rw [List.nil_append] at hr
  refine ⟨fun n it => ?_, hr.sub⟩
  unfold ItemList.get
  split
  · rename_i hn; simp [hn]
  · rename_i hn
    constructor
    · intro e
      split at e
      · cases e
      · rename_i i hx
        obtain ⟨it', h1, h2, h3⟩ := hr.found n i hx
        obtain ⟨h4, h5⟩ := List.getElem?_eq_some_iff.1 h1
        rw [dif_pos h4, h5] at e
        cases e
        exact ⟨hn, h3, h2⟩
    · rintro ⟨_, h1, rfl⟩
      obtain ⟨i, h2, h3⟩ := hr.has it h1
      obtain ⟨h4, h5⟩ := List.getElem?_eq_some_iff.1 h3
      rw [h2]
      simp only
      rw [dif_pos h4, h5]

/-- Adding a member throws exactly when it is to be stored and the list cannot grow (the member is lost) or the index has
    no room. -/
theorem C66_member_throws_iff (h : List (Fault × Item)) (f : Fault) (v : Item) (k : Nat) :
    let r := ItemList.empty.runF h
    (r.1.addF f v).2.2 = .threw k ↔ (∀ it ∈ r.1.items, it.ptr ≠ v.ptr) ∧ (∀ it ∈ r.2, it.name ≠ v.name) ∧
      (f = .grow ∧ k = 1 ∨ f = .index ∧ k = 0) := by
  intro r
  have hr := ItemList.RepF.empty.runF h
  rw [List.nil_append] at hr
  change ItemList.RepF r.1 r.2 at hr
  have h1 : (r.1.items.any fun it => v.ptr == it.ptr) = false ↔ ∀ it ∈ r.1.items, it.ptr ≠ v.ptr := by
    rw [List.any_eq_false]
    exact ⟨fun h it hi e => h it hi (by simp [e]), fun h it hi e => h it hi (by simpa using Eq.symm (by simpa using e : v.ptr = it.ptr))⟩
  have h2 : (r.1.names v.name).isSome = false ↔ ∀ it ∈ r.2, it.name ≠ v.name := by
    constructor
    · intro e it hi hn
      obtain ⟨i, h3, _⟩ := hr.has it hi
      rw [hn] at h3; rw [h3] at e; cases e
    · intro e
      cases hx : r.1.names v.name with
      | none => rfl
      | some i =>
        obtain ⟨it, _, h3, h4⟩ := hr.found _ _ hx
        exact absurd h3 (e it h4)
  unfold ItemList.addF
  rw [← h1, ← h2]
  cases (r.1.items.any fun it => v.ptr == it.ptr) <;> cases (r.1.names v.name).isSome <;> simp
  cases f <;> simp [eq_comm]

/-- As long as no entry of the index fails, the members are exactly those added by calls that returned. -/
theorem C66_members_untouched_partial (h : List (Fault × Item)) (hf : ∀ c ∈ h, c.1 ≠ .index) :
    (ItemList.empty.runF h).1.items = (ItemList.empty.runF h).2 := by
  simpa [ItemList.empty] using ItemList.runF_items (l := ItemList.empty) h hf

example : (ItemList.empty.runF [(.none, ⟨2, ['a']⟩), (.grow, ⟨3, ['b']⟩), (.none, ⟨4, ['b']⟩), (.index, ⟨5, ['c']⟩), (.none, ⟨6, ['d']⟩)]).2
    = [⟨2, ['a']⟩, ⟨4, ['b']⟩, ⟨6, ['d']⟩] := by decide

/-- Without a fault this is the model of the other properties. -/
theorem C66_no_fault (w : World) (owner : Ptr) (name : Str) (t : Nat) :
    w.createNamespaceF .none owner name = ((w.createNamespace owner name).1, some (w.createNamespace owner name).2) ∧
    w.createClassF .none owner name t = ((w.createClass owner name t).1, some (w.createClass owner name t).2) := by
  have key : ∀ (k : Cat) (t : Nat) (look : World → Res (Option Ptr)) (stored : World → Ptr → World),
      w.getOrCreateF .none owner k name t look stored =
        ((w.getOrCreate owner k name t look stored).1, some (w.getOrCreate owner k name t look stored).2) := by
    intro k t look stored
    unfold World.getOrCreateF World.getOrCreate
    cases look w with
    | val o =>
      cases o with
      | some p => rfl
      | none =>
        dsimp only
        rw [if_neg (by decide)]
        rw [ItemList.addF_none]
        unfold World.addItem Container.addItem
        dsimp only
        split <;> rfl
    | throw e => rfl
    | ub => rfl
    | diverge => rfl
  refine ⟨key _ _ _ _, ?_⟩
  unfold World.createClassF World.createClass
  rcases w.getItem owner .cls name with o | e | _ | _
  · cases o with
    | some p => rfl
    | none =>
      dsimp only
      split
      · rfl
      · split
        · rfl
        · exact key _ _ _ _
  · rfl
  · rfl
  · rfl

/-- Running out of memory before the index leaves every container and every type as it was: the call can be repeated.
    (Missing: the index, see `C66_duplicate_false`; and the new object may be lost.) -/
theorem C66_create_unchanged_partial (f : Fault) (hf : f ≠ .index) (w : World) (owner : Ptr) (k : Cat) (name : Str) (t : Nat)
    (look : World → Res (Option Ptr)) (stored : World → Ptr → World)
    (h : (w.getOrCreateF f owner k name t look stored).2 = none) :
    let w' := (w.getOrCreateF f owner k name t look stored).1
    w'.metaClass = w.metaClass ∧ w'.valid = w.valid ∧ ∀ c, c ≠ w.next → w'.cont c = w.cont c ∧ w'.kind c = w.kind c ∧ w'.name c = w.name c := by
  revert h
  unfold World.getOrCreateF
  cases look w with
  | val o =>
    cases o with
    | some p => intro h; cases h
    | none =>
      dsimp only
      split
      · intro _; exact ⟨rfl, rfl, fun _ _ => ⟨rfl, rfl, rfl⟩⟩
      · generalize hr : ((w.alloc k name owner t).cont owner k).addF f ⟨w.next, name⟩ = r
        obtain ⟨l, b, o⟩ := r
        cases o with
        | ok => intro h; revert h; dsimp only; split <;> intro h <;> cases h
        | threw m =>
          intro _
          have hl := ItemList.addF_threw hf hr
          subst hl
          refine ⟨rfl, rfl, fun c hc => ⟨?_, by simp [World.alloc, upd, hc], by simp [World.alloc, upd, hc]⟩⟩
          simp only [upd]
          split
          · rename_i e
            subst e
            funext k'
            have : (w.alloc k name c t).cont c = w.cont c := by simp [World.alloc, upd, hc]
            rw [this]
            split
            · rename_i e'; rw [e']
            · rfl
          · simp [World.alloc, upd, hc]
  | throw e => intro h; cases h
  | ub => intro h; cases h
  | diverge => intro h; cases h

/-- Defining a namespace throws exactly when there is none of that name yet and one of the allocations for a new one fails. -/
theorem C66_namespace_throws_iff {rank : Nat → Nat} {w : World} (hw : Reachable rank w) (f : Fault) (owner : Ptr) (name : Str)
    (hn : name ≠ []) :
    (w.createNamespaceF f owner name).2 = none ↔
      w.getItem owner .nmspace name = .val none ∧ (f = .object ∨ f = .grow ∨ f = .index) := by
  unfold World.createNamespaceF
  exact createF_none_iff (World.Inv.reachable hw) f owner .nmspace name 0 hn _

/-- The same for a class, of a type that may have one. -/
theorem C66_class_throws_iff {rank : Nat → Nat} {w : World} (hw : Reachable rank w) (f : Fault) (owner : Ptr) (name : Str)
    (t : Nat) (hn : name ≠ []) :
    (w.createClassF f owner name t).2 = none ↔
      w.getItem owner .cls name = .val none ∧ w.valid t = true ∧ w.metaClass t = none ∧ (f = .object ∨ f = .grow ∨ f = .index) := by
  unfold World.createClassF
  have key := createF_none_iff (World.Inv.reachable hw) f owner .cls name t hn (fun w p => { w with metaClass := upd w.metaClass t (some p) })
  cases hg : w.getItem owner .cls name with
  | val o =>
    cases o with
    | some p => simp
    | none =>
      dsimp only
      cases hv : w.valid t with
      | false => simp
      | true =>
        cases hm : w.metaClass t with
        | some p => simp
        | none => simpa [hg] using key
  | throw e => simp
  | ub => simp
  | diverge => simp

example : (World.init.createNamespaceF .object 1 ['N']).2 = none ∧
    ((World.init.createNamespace 1 ['N']).1.createNamespaceF .object 1 ['N']).2 = some (.val (some 2)) := by decide

/-- A failing index entry: the namespace is there but cannot be found, defining it again makes a second one of the same
    name; for a class, the type has no class although its class is listed. -/
theorem C66_duplicate_false :
    let r := World.init.createNamespaceF .index 1 ['N']
    let r' := r.1.createNamespace 1 ['N']
    r.2 = none ∧ (r.1.cont 1 .nmspace).items = [⟨2, ['N']⟩] ∧ r.1.getItem 1 .nmspace ['N'] = .val none ∧
    r'.2 = .val (some 3) ∧ (r'.1.cont 1 .nmspace).items = [⟨2, ['N']⟩, ⟨3, ['N']⟩] := by decide

theorem C66_class_false :
    let r := (World.init.step (.registerType 5)).1.createClassF .index 1 ['A'] 5
    r.2 = none ∧ (r.1.cont 1 .cls).items = [⟨2, ['A']⟩] ∧ r.1.metaClass 5 = none ∧
    ((r.1.createClass 1 ['A'] 5).1.cont 1 .cls).items = [⟨2, ['A']⟩, ⟨3, ['A']⟩] := by decide

example : (World.init.createNamespaceF .grow 1 ['N']).2 = none ∧
    ((World.init.createNamespaceF .grow 1 ['N']).1.createNamespace 1 ['N']).2 = .val (some 3) := by decide

end Rtti.Props
