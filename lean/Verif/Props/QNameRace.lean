import Verif.Lemmas.QNameRace
/-! C64: qualified names asked for by several threads. -/
set_option autoImplicit false
namespace Rtti.Props
open Rtti.Spec Rtti.QNameRace

/-- two namespaces -/
def twoNamespaces : World := World.run World.init [.createNamespace 1 ['A'], .createNamespace 1 ['B']]

/-- Whatever names are cached from before, for every interleaving of any number of threads: each answer is the spelled
    path of the item asked for. (Reading each access to a cache as atomic: what is missing is that they are not, see
    `C64_data_race_false`.) -/
theorem C64_value_partial {rank : Nat → Nat} {s : QName.State} (h : QReachable rank s) (ask : Nat → Nat)
    (hask : ∀ t, ∃ k, s.world.kind (ask t) = some k) (ts : List Nat) (t : Nat) (v : Str)
    (hd : (run s.world (start s.cache ask) ts).pc t = .done v) :
    ∃ path, HasPath s.world (ask t) path ∧ v = spell path := by
  have q := QName.QInv.reachable h
  have ho := OwnerLt.reachable q.reach
  have hok : Ok s.world ask (start s.cache ask) := by
    refine ⟨fun p => ?_, fun t p st e => ?_, fun t p v st e => ?_, fun t p st e => ?_, fun t v e => ?_⟩
    · rcases q.cache p with e | ⟨k, path, hk, hp, e⟩
      · exact .inl e
      · right
        show Named s.world p (s.cache p)
        rw [e]; exact named_of_path ho.1 hp
    · cases e; exact .nil
    · cases e
    · cases e
    · cases e
  obtain ⟨k, hk⟩ := hask t
  obtain ⟨path, hp⟩ := HasPath.exists (World.Inv.reachable q.reach) ho (ask t) k hk
  exact ⟨path, hp, ((hok.run ts).done t v hd).unique (named_of_path ho.1 hp)⟩

/-- Every thread gets its answer: after three own steps for each item on the path (the global namespace included), whatever
    the other threads do meanwhile, and the answer is the spelled path. -/
theorem C64_answers {rank : Nat → Nat} {s : QName.State} (h : QReachable rank s) (ask : Nat → Nat)
    (hask : ∀ t, ∃ k, s.world.kind (ask t) = some k) (t : Nat) :
    ∃ path, HasPath s.world (ask t) path ∧
      ∀ ts : List Nat, 3 * (path.length + 1) ≤ ts.count t → (run s.world (start s.cache ask) ts).pc t = .done (spell path) := by
  have q := QName.QInv.reachable h
  have ho := OwnerLt.reachable q.reach
  obtain ⟨k, hk⟩ := hask t
  obtain ⟨path, hp⟩ := HasPath.exists (World.Inv.reachable q.reach) ho (ask t) k hk
  refine ⟨path, hp, fun ts hn => ?_⟩
  obtain ⟨v, hv⟩ := Left.run ho.1 (t := t) ts (s := start s.cache ask) (n := 3 * (path.length + 1))
    ⟨path, hp, by simp only [List.length_nil]; omega⟩ hn
  obtain ⟨path', hp', e⟩ := C64_value_partial h ask hask ts t v hv
  rw [hv, e, HasPath.unique ho hp' hp]

-- six steps for a namespace in the global namespace, with another thread in between
example : HasPath twoNamespaces 2 [['A']] := .member rfl .global
example : [0, 1, 0, 1, 1, 0, 1, 0, 0, 1, 0].count 0 = 3 * ([['A']].length + 1) := by decide
example : (run twoNamespaces (start (fun _ => []) fun t => t + 2) [0, 1, 0, 1, 1, 0, 1, 0, 0, 1, 0]).pc 0 =
    .done (spell [['A']]) := by decide

/-- If every name asked for was asked for before, by one thread, no thread writes: no data race, and each answer is
    what was cached. -/
theorem C64_cached_partial (w : World) (cache : Nat → Str) (ask : Nat → Nat) (hc : ∀ t, cache (ask t) ≠ []) (ts : List Nat) :
    ¬ Racing (run w (start cache ask) ts) ∧
    ∀ t v, (run w (start cache ask) ts).pc t = .done v → v = cache (ask t) := by
  obtain ⟨_, h⟩ := cached_run (w := w) hc ts (s := start cache ask) ⟨rfl, fun t => .inl rfl⟩
  refine ⟨?_, fun t v e => ?_⟩
  · rintro ⟨t, t', p, v, st, -, e, -⟩
    rcases h t with h | h | h <;> rw [h] at e <;> cases e
  · rcases h t with h | h | h <;> rw [h] at e <;> cases e
    rfl

/-- Exactly when a race can happen: when the names of two of the threads have an item in common that was not cached from
    before. -/
theorem C64_race_iff {rank : Nat → Nat} {s : QName.State} (h : QReachable rank s) (ask : Nat → Nat)
    (hask : ∀ t, ∃ k, s.world.kind (ask t) = some k) :
    (∃ ts, Racing (run s.world (start s.cache ask) ts)) ↔
      ∃ t t' p, t ≠ t' ∧ Uncached s.world s.cache (ask t) p ∧ Uncached s.world s.cache (ask t') p := by
  constructor
  · rintro ⟨ts, t, t', p, v, st, hne, e, ha⟩
    have hv := (Visiting.start s.world s.cache ask).run ts
    have h1 := hv.pc t
    rw [e] at h1
    refine ⟨t, t', p, hne, h1.1, ?_⟩
    have h2 := hv.pc t'
    revert ha h2
    cases (run s.world (start s.cache ask) ts).pc t' with
    | test q st => rintro rfl h2; exact h2.1.cold h1.1.last
    | put q v st => rintro rfl h2; exact h2.1
    | get q st => rintro rfl h2; exact h2.1.cold h1.1.last
    | done v => exact fun ha => ha.elim
  · rintro ⟨t, t', p, hne, ht, ht'⟩
    have q := QName.QInv.reachable h
    have ho := OwnerLt.reachable q.reach
    obtain ⟨k, hk⟩ := hask t
    obtain ⟨path, hp⟩ := HasPath.exists (World.Inv.reachable q.reach) ho (ask t) k hk
    obtain ⟨n, st, a1, a2, a3⟩ := climb (t := t') ht' (s := start s.cache ask) (st := []) rfl rfl
    obtain ⟨m, st', b1, b2, b3⟩ := climb (t := t) ht (s := run s.world (start s.cache ask) (List.replicate n t')) (st := []) (by rw [a3 t hne]; rfl) a2
    obtain ⟨path', hp'⟩ := ht.path ho.1 hp
    obtain ⟨l, v, c1, c2⟩ := reach_put (t := t) ho.1 hp' (s := run s.world (run s.world (start s.cache ask) (List.replicate n t')) (List.replicate m t))
      b1 (by rw [b2]; exact ht.last)
    refine ⟨List.replicate n t' ++ List.replicate m t ++ List.replicate l t, t, t', p, v, st', hne, ?_, ?_⟩
    · rw [run_append, run_append]; exact c1
    · rw [run_append, run_append, c2 t' hne.symm, b3 t' hne.symm, a1]; rfl

example : Uncached twoNamespaces (fun _ => []) 2 1 ∧ Uncached twoNamespaces (fun _ => []) 3 1 :=
  ⟨.step rfl rfl (.here rfl), .step rfl rfl (.here rfl)⟩
-- asked for before, but for the global namespace, whose name is empty
example : ¬ ∃ p, Uncached twoNamespaces (fun p => if p = 1 then [] else [':', ':', 'x']) 2 p := by
  rintro ⟨p, h⟩
  cases h with
  | here h => cases h
  | step h => cases h


/-- C64 is false: two threads that ask for the names of different items write the cache of the global namespace at the
    same time (a data race). -/
theorem C64_data_race_false : Racing (run twoNamespaces (start (fun _ => []) fun t => t + 2) [0, 0, 1, 1]) :=
  ⟨0, 1, 1, [], [2], by decide, by decide, rfl⟩

/-- The cache of the global namespace is written by every question for its name, however often it was asked before. -/
theorem C64_global_always_written_false {rank : Nat → Nat} {s : QName.State} (h : QReachable rank s) (ask : Nat → Nat)
    (t t' : Nat) (hne : t ≠ t') (ht : ask t = World.globalNs) (ht' : ask t' = World.globalNs) :
    Racing (run s.world (start s.cache ask) [t]) := by
  have q := QName.QInv.reachable h
  have ho := (OwnerLt.reachable q.reach).1
  have hc : s.cache 1 = [] := by
    rcases q.cache 1 with e | ⟨k, path, hk, hp, e⟩
    · exact e
    · rw [e, HasPath.unique (OwnerLt.reachable q.reach) hp .global]; rfl
  have ht : ask t = 1 := ht
  have ht' : ask t' = 1 := ht'
  refine ⟨t, t', 1, [], [], hne, ?_, ?_⟩
  · simp [run, QNameRace.step, start, ht, hc, ho, upd]
  · simp [run, QNameRace.step, start, ht, ht', hc, ho, upd, Ne.symm hne, Accesses]

example : (run twoNamespaces (start (fun _ => []) fun t => t + 2) [0, 1, 0, 1, 1, 0, 1, 0, 1, 0, 1, 0, 1, 0]).pc 0 =
    .done [':', ':', 'A'] := by decide
example : (run twoNamespaces (start (fun _ => []) fun t => t + 2) [0, 1, 0, 1, 1, 0, 1, 0, 1, 0, 1, 0, 1, 0]).pc 1 =
    .done [':', ':', 'B'] := by decide

end Rtti.Props
