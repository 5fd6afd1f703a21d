import Verif.Lemmas.Shutdown
import Verif.Examples.Worlds
/-! C70: the end of the program. -/
set_option autoImplicit false
namespace Rtti.Props
open Rtti Spec World Shutdown

/-- C70: after any history, the end of the global namespace destroys every meta-object there is, each once, and nothing else;
    no object is destroyed twice (that would be undefined). -/
theorem C70_all_destroyed {rank : TypeId → Nat} {w : World} (h : Reachable rank w) :
    ∃ w' log, destroyGlobal w = (w', log, .val ()) ∧ log.Nodup ∧ (∀ p, p ∈ log ↔ (w.kind p).isSome = true) ∧
      ∀ p, w'.kind p = none := by
  have i := World.Inv.reachable h
  have o := OwnerLt.reachable h
  have h1 : (w.kind 1).isSome = true := by rw [i.glob]; rfl
  have hf : w.next < w.depth + 1 := by simp only [World.depth]; omega
  refine ⟨_, _, destroyF_spec i o w.depth World.globalNs h1 hf w rfl fun _ _ => rfl, tree_nodup i o _ _ h1, mem_tree i o hf, fun p => ?_⟩
  simp only [kill]
  split
  · rfl
  · rename_i hp
    cases e : w.kind p with
    | none => rfl
    | some k => exact absurd ((mem_tree i o hf p).2 (by rw [e]; rfl)) hp

/-- C70: in which order: an object before everything it owns; of the members of one object the constructors first, then enums,
    methods, properties, classes and namespaces, and each kind in the order of definition. (`[a, b]` is a sublist of the log:
    `a` is destroyed before `b`.) -/
theorem C70_order {rank : TypeId → Nat} {w : World} (h : Reachable rank w) :
    (∀ p o, (w.kind p).isSome = true → w.owner p = some o → [o, p].Sublist (destroyGlobal w).2.1) ∧
    (∀ c k (x y : Item), [x, y].Sublist (w.cont c k).items → [x.ptr, y.ptr].Sublist (destroyGlobal w).2.1) ∧
    ∀ c k k' (x y : Item), [k, k'].Sublist [Cat.constructor, .enum, .method, .property, .cls, .nmspace] →
      x ∈ (w.cont c k).items → y ∈ (w.cont c k').items → [x.ptr, y.ptr].Sublist (destroyGlobal w).2.1 := by
  have i := World.Inv.reachable h
  have o := OwnerLt.reachable h
  have h1 : (w.kind 1).isSome = true := by rw [i.glob]; rfl
  have hf : w.next < w.depth + 1 := by simp only [World.depth]; omega
  have e : (destroyGlobal w).2.1 = tree w w.depth 1 := by
    rw [destroyGlobal, show World.globalNs = 1 from rfl, destroyF_spec i o w.depth 1 h1 hf w rfl fun _ _ => rfl]
  rw [e]
  have part : ∀ c, (w.kind c).isSome = true → ∀ l : List Ptr, (∀ m, w.next < m + c → l.Sublist (tree w m c)) →
      l.Sublist (tree w w.depth 1) := by
    intro c hc l hl
    obtain ⟨a, m, b, e1, e2⟩ := tree_part i o hf ((mem_tree i o hf c).2 hc)
    rw [e1]
    exact (hl m e2).trans ((List.sublist_append_right _ _).trans (List.sublist_append_left _ _))
  have live : ∀ c k x, x ∈ (w.cont c k).items → (w.kind c).isSome = true := by
    intro c k x hx
    have := (i.items _ _ _ hx).1
    rw [isContainer_iff] at this
    rcases this with h | h <;> rw [h] <;> rfl
  refine ⟨fun p c hp hc => ?_, fun c k x y hx => ?_, fun c k k' x y hk hx hy => ?_⟩
  · obtain ⟨k, hk⟩ := Option.isSome_iff_exists.1 hp
    have hne : p ≠ 1 := fun e => by rw [e, o.1] at hc; cases hc
    obtain ⟨c', h2, h3⟩ := i.owned p k hk hne
    rw [hc] at h2; cases h2
    exact part c (live _ _ _ h3) _ fun m hm => (tree_order i o hm).1 _ _ h3
  · exact part c (live _ _ _ (hx.subset (List.mem_cons_self ..))) _ fun m hm => (tree_order i o hm).2.1 _ _ _ hx
  · exact part c (live _ _ _ hx) _ fun m hm => (tree_order i o hm).2.2 _ _ _ _ hk hx hy

/-- C70: false of the code when the registry of types was made first, as by any use of a type before the first definition:
    then every class can still be looked up by its type after it was destroyed. -/
theorem C70_dangling_false {rank : TypeId → Nat} {w : World} (h : Reachable rank w) {p : Ptr} (hp : w.kind p = some .cls) :
    ∃ w' t, between .typesFirst w = (w', .val ()) ∧ w'.find t = some p ∧ w'.kind p = none := by
  obtain ⟨w', log, h1, _, _, h4⟩ := C70_all_destroyed h
  have i := World.Inv.reachable h
  have o := OwnerLt.reachable h
  have hm := i.cm p hp
  refine ⟨w', (w.cls p).typeId, by rw [between, h1], ?_, h4 p⟩
  have e := destroyF_spec i o w.depth World.globalNs (by rw [show World.globalNs = 1 from rfl, i.glob]; rfl)
    (by simp only [World.depth]; omega) w rfl fun _ _ => rfl
  rw [destroyGlobal, e] at h1
  cases h1
  simp [World.find, kill, hm, (i.mc _ _ hm).1]

/-- C70: when the global namespace was made first, no class is found by type any more once the types are gone, ... -/
theorem C70_find_null (w : World) (t : TypeId) : (between .namespaceFirst w).1.find t = none := by
  simp [between, destroyTypes, World.find]

/-- ... look-up of items by name still answers as before, ... -/
theorem C70_names_kept (w : World) (c : Ptr) (k : Cat) (n : Str) :
    (between .namespaceFirst w).1.getItem c k n = w.getItem c k n ∧
    (between .namespaceFirst w).1.getConstructor c n = w.getConstructor c n := ⟨rfl, rfl⟩

/-- ... `inheritedFrom` and `cast` are undefined exactly when the class has a base and is not itself the one asked for
    (the base's description is looked up by type, found to be null and used), ... -/
theorem C70_walk_partial {w : World} (d b : Ptr) (a : Addr) :
    let w' := (between .namespaceFirst w).1
    (w'.inheritedFrom d (some b) = if b = d then .val true else if w.baseClassCount d = 0 then .val false else .ub) ∧
    (w'.cast d (some b) a = if b = d then .val a else if w.baseClassCount d = 0 then .val 0 else .ub) := by
  have hf : ∀ t, (destroyTypes w).find t = none := fun t => by simp [destroyTypes, World.find]
  have hc : (destroyTypes w).cls = w.cls := rfl
  simp only [between, World.inheritedFrom, World.cast, World.depth, World.inheritedFromF, World.castF, World.baseClassCount, hc]
  by_cases e : (w.cls d).bases = []
  · simp [e, World.anyBase, World.castBase]
  · obtain ⟨x, xs, e⟩ := List.exists_cons_of_ne_nil e
    simp [e, World.anyBase, World.castBase, hf]

/-- ... and so are look-ups of methods and properties that the class does not have itself. -/
theorem C70_member_partial {rank : TypeId → Nat} {w : World} (h : Reachable rank w) {d : Ptr} (hd : w.kind d = some .cls) {n : Str} (hn : n ≠ []) :
    let w' := (between .namespaceFirst w).1
    ((∀ m, w'.getMethod d n = .val (some m) ↔ OwnMethod w n d m) ∧
     (w'.getMethod d n = .val none ↔ (∀ m, ¬OwnMethod w n d m) ∧ w.baseClassCount d = 0) ∧
     (w'.getMethod d n = .ub ↔ (∀ m, ¬OwnMethod w n d m) ∧ w.baseClassCount d ≠ 0)) ∧
    ((∀ m, w'.getProperty d n = .val (some m) ↔ OwnProperty w n d m) ∧
     (w'.getProperty d n = .val none ↔ (∀ m, ¬OwnProperty w n d m) ∧ w.baseClassCount d = 0) ∧
     (w'.getProperty d n = .ub ↔ (∀ m, ¬OwnProperty w n d m) ∧ w.baseClassCount d ≠ 0)) := by
  have i := World.Inv.reachable h
  have hf : ∀ t, (destroyTypes w).find t = none := fun t => by simp [destroyTypes, World.find]
  have hc : (destroyTypes w).cls = w.cls := rfl
  have hk : (destroyTypes w).kind d = some .cls := hd
  have hfb : ∀ f, World.firstBase (destroyTypes w) f (w.cls d).bases = if w.baseClassCount d = 0 then .val none else .ub := by
    intro f
    unfold World.baseClassCount
    cases (w.cls d).bases with
    | nil => simp [World.firstBase]
    | cons x xs => simp [World.firstBase, hf]
  simp only [between]
  refine ⟨?_, ?_⟩
  · obtain ⟨r, e, hr⟩ := ownMethod_spec w d n
    have e' : (destroyTypes w).ownMethod d n = .val r := e
    simp only [World.getMethod, hn, if_false, hk, World.depth, World.classMethodF, e', hc, hfb]
    cases r with
    | some m => 
      have hm := (hr m).1 rfl
      refine ⟨fun m' => ?_, ⟨nofun, fun x => absurd hm (x.1 m)⟩, ⟨nofun, fun x => absurd hm (x.1 m)⟩⟩
      rw [← hr m']; simp
    | none =>
      have hm : ∀ m, ¬OwnMethod w n d m := fun m x => nomatch (hr m).2 x
      by_cases hb : w.baseClassCount d = 0 <;> simp [hb, hm]
  · have hr := fun m => i.ownProperty_spec d n hn m
    have e' : (destroyTypes w).ownProperty d n = w.ownProperty d n := rfl
    simp only [World.getProperty, hn, if_false, hk, World.depth, World.classPropertyF, e', hc, hfb]
    cases e : w.ownProperty d n with
    | some m =>
      rw [e] at hr
      have hm := (hr m).1 rfl
      refine ⟨fun m' => ?_, ⟨nofun, fun x => absurd hm (x.1 m)⟩, ⟨nofun, fun x => absurd hm (x.1 m)⟩⟩
      rw [← hr m']; simp
    | none =>
      rw [e] at hr
      have hm : ∀ m, ¬OwnProperty w n d m := fun m x => nomatch (hr m).2 x
      by_cases hb : w.baseClassCount d = 0 <;> simp [hb, hm]

/-- C70: false of the code, also in this order: with a reachable world and a derived class. -/
theorem C70_walk_false : ∃ (w : World) (d b : Ptr), Reachable id w ∧ w.inheritedFrom d (some b) = .val true ∧
    (between .namespaceFirst w).1.inheritedFrom d (some b) = .ub :=
  ⟨Ex.diamond, 5, 2, Ex.diamond_reachable, by decide, by decide⟩

-- the diamond of `Examples/Worlds.lean`: four classes with members, destroyed members first
example : (destroyGlobal Ex.diamond).2 = ([1, 2, 8, 6, 7, 3, 4, 9, 5], .val ()) := by decide +kernel
example : Reachable id Ex.diamond ∧ Ex.diamond.kind 5 = some .cls ∧ Ex.diamond.find 4 = some 5 := ⟨Ex.diamond_reachable, by decide, by decide⟩
example : (between .namespaceFirst Ex.diamond).1.getMethod 4 ['g'] = .val (some 9) ∧
    (between .namespaceFirst Ex.diamond).1.getMethod 4 ['f'] = .ub := by decide
example : (Ex.diamond.kind 6).isSome = true ∧ Ex.diamond.owner 6 = some 2 ∧ [2, 6].Sublist [1, 2, 8, 6, 7, 3, 4, 9, 5] ∧
    (Ex.diamond.cont 1 .cls).items.length = 4 := by decide
-- destroying an object twice is told apart
example : (destroyF 9 (Ex.diamond.free 7) 1).2.2 = .ub := by decide +kernel

end Rtti.Props
