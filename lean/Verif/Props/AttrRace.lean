import Verif.Lemmas.AttrRace
/-! C65: attributes read and set by several threads. -/
set_option autoImplicit false
namespace Rtti.Props
open Rtti.Spec Rtti.AttrRace
variable {V : Type}

/-- Under every interleaving: a reference never dangles, and what a thread reads through it is the value last set for
    the name it asked for, even if it was set after the look-up. (Reading the accesses as atomic; what is missing is
    that an assignment may run at the same time, see `C65_data_race_false`.) -/
theorem C65_reference_live_partial (as : List (Act V)) (t i : Nat) (h : (run (init : State V) as).ref t = some i) :
    ∃ v, (step (run init as) (.read t)).seen t = some v ∧ lastValue (run init as).hist ((run init as).asked t) = some v := by
  have ok := (Ok.init (V := V)).run as
  obtain ⟨h1, h2⟩ := ok.ref t i h
  have h3 := (ok.rep.index _ _).1 h2
  rw [List.getElem?_map] at h3
  cases e : (run init as).list.items[i]? with
  | none => rw [e] at h3; cases h3
  | some p =>
    rw [e] at h3
    refine ⟨p.2, ?_, ?_⟩
    · simp [step, h, upd, e]
    · have := ok.rep.value i p e
      simp only [Option.map_some, Option.some.injEq] at h3
      rw [← h3]; exact this

/-- Only threads that use the same name get in each other's way. -/
theorem C65_race_same_name_partial (as : List (Act V)) (t t' : Nat) (h : Racing (run (init : State V) as) t t') :
    ∃ v, (run init as).writer = some (t, (run init as).asked t', v) := by
  have ok := (Ok.init (V := V)).run as
  obtain ⟨_, n, v, i, hw, hn, hr⟩ := h
  obtain ⟨_, h2⟩ := ok.ref t' i hr
  have e1 := (ok.rep.index _ _).1 h2
  have e2 := (ok.rep.index _ _).1 hn
  rw [e1] at e2
  cases e2
  exact ⟨v, hw⟩

/-- While a thread is setting an attribute it alone changes the attributes, and nobody looks one up (a look-up of the empty name does not
    look). -/
theorem C65_exclusive (as : List (Act V)) (a : Act V) (t : Nat) (n : Str) (v : V) (hw : (run (init : State V) as).writer = some (t, n, v))
    (ha : a ≠ .write t) :
    let s := run (init : State V) as
    (step s a).list = s.list ∧ (step s a).writer = s.writer ∧ (step s a).hist = s.hist ∧
    ∀ u, (step s a).ref u = s.ref u ∧ (step s a).asked u = s.asked u ∨ a = .lookup u [] := by
  intro s
  have hw' : s.writer = some (t, n, v) := hw
  cases a with
  | lookup u m =>
    by_cases hm : m = []
    · subst hm
      refine ⟨by simp [step], by simp [step], by simp [step], fun u' => ?_⟩
      by_cases e : u' = u
      · subst e; exact .inr rfl
      · exact .inl ⟨by simp [step, upd, e], by simp [step, upd, e]⟩
    · simp [step, hm, hw']
  | lock u m w => simp [step, hw']
  | write u =>
    have : t ≠ u := fun e => ha (by rw [e])
    simp [step, hw', this]
  | read u => cases h : s.ref u <;> simp [step, h]

/-- Exactly when they do: when one thread is setting the attribute the other one holds a reference to. -/
theorem C65_race_iff (as : List (Act V)) (t t' : Nat) :
    Racing (run (init : State V) as) t t' ↔
      t ≠ t' ∧ ((run init as).ref t').isSome = true ∧ ∃ v, (run init as).writer = some (t, (run init as).asked t', v) := by
  constructor
  · intro h
    refine ⟨h.1, ?_, C65_race_same_name_partial as t t' h⟩
    obtain ⟨_, n, v, i, hw, hn, hr⟩ := h
    rw [hr]; rfl
  · rintro ⟨hne, hr, v, hw⟩
    obtain ⟨i, hi⟩ := Option.isSome_iff_exists.1 hr
    exact ⟨hne, _, v, i, hw, (((Ok.init (V := V)).run as).ref t' i hi).2, hi⟩

private theorem hist_named (as : List (Act V)) (s : State V) (ok : Ok s) (h : ∀ p ∈ s.hist, p.1 ≠ []) : ∀ p ∈ (run s as).hist, p.1 ≠ [] := by
  induction as generalizing s with
  | nil => exact h
  | cons a as ih =>
    refine ih _ (ok.run [a]) ?_
    cases a with
    | lookup t n => simp only [step]; (repeat' split) <;> exact h
    | lock t n v => simp only [step]; split <;> exact h
    | read t => simp only [step]; split <;> exact h
    | write t =>
      simp only [step]
      split
      · rename_i t' n v e
        split
        · split
          · intro p hp
            rcases List.mem_append.1 hp with hp | hp
            · exact h p hp
            · rw [List.mem_singleton] at hp; subst hp; exact ok.writer _ _ _ e
          · exact h
        · exact h
      · exact h

/-- A thread that looks a name up and then reads what it got reads the value last set for the name, or the empty variant if none was; no lock is needed for the
    empty name, which has no attribute. -/
theorem C65_lookup (as : List (Act V)) (t : Nat) (n : Str) (hw : n = [] ∨ (run (init : State V) as).writer = none) :
    (run (run init as) [.lookup t n, .read t]).seen t = lastValue (run init as).hist n := by
  have ok := (Ok.init (V := V)).run as
  have hh := hist_named as (init : State V) Ok.init nofun
  generalize run (init : State V) as = s at *
  by_cases hn : n = []
  · subst hn
    have : s.hist.filter (fun p => p.1 = []) = [] := List.filter_eq_nil_iff.2 fun p hp => by simpa using hh p hp
    simp [run, step, upd, lastValue, this]
  · have hw : s.writer = none := hw.resolve_left hn
    simp only [run, step, hn, if_false, hw, Option.isSome_none, Bool.false_eq_true, upd, if_true]
    cases e : s.list.names n with
    | none =>
      have hm : n ∉ definedNames s.hist := by
        intro hm
        obtain ⟨i, hi⟩ := List.getElem?_of_mem (ok.rep.names_eq ▸ hm)
        rw [(ok.rep.index n i).2 hi] at e; cases e
      have : s.hist.filter (fun p => p.1 = n) = [] := List.filter_eq_nil_iff.2 fun p hp he =>
        hm ((NamedList.mem_definedNames _ _).2 ⟨hn, p.2, by simp at he; rw [← he]; exact hp⟩)
      simp [lastValue, this, upd]
    | some i =>
      have h3 := (ok.rep.index _ _).1 e
      rw [List.getElem?_map] at h3
      cases hi : s.list.items[i]? with
      | none => rw [hi] at h3; cases h3
      | some p =>
        rw [hi] at h3
        simp only [Option.map_some, Option.some.injEq] at h3
        have hl : i < s.list.items.length := (List.getElem?_eq_some_iff.1 hi).1
        simp only [Option.filter, hl, decide_true, if_true, hi, Option.map_some]
        simp only [upd, if_true]
        rw [← h3]; exact (ok.rep.value i p hi).symm

-- set, and not set
example : (run (run (init : State Nat) [.lock 0 ['x'] 1, .write 0, .lock 0 ['x'] 2, .write 0]) [.lookup 1 ['x'], .read 1]).seen 1 = some 2 := by decide
example : (run (run (init : State Nat) [.lock 0 ['x'] 1, .write 0, .lookup 1 ['x'], .read 1]) [.lookup 1 ['y'], .read 1]).seen 1 = none := by decide

/-- Setting goes through: a thread that finds no one else setting gets the lock, and its value is then the last one set. A thread that
    has the lock can always finish; until it does, nobody else gets the lock or looks anything up (but for the empty name), and no
    other thread can finish in its place. -/
theorem C65_set (as : List (Act V)) :
    (∀ t n v, n ≠ [] → (run (init : State V) as).writer = none →
      (run (run init as) [.lock t n v, .write t]).hist = (run init as).hist ++ [(n, v)] ∧
      (run (run init as) [.lock t n v, .write t]).writer = none ∧
      (step (run init as) (.lock t n v)).writer = some (t, n, v)) ∧
    ∀ t n v, (run (init : State V) as).writer = some (t, n, v) →
      (step (run init as) (.write t)).hist = (run init as).hist ++ [(n, v)] ∧ (step (run init as) (.write t)).writer = none ∧
      (∀ t', t' ≠ t → step (run init as) (.write t') = run init as) ∧ (∀ t' n' v', step (run init as) (.lock t' n' v') = run init as) ∧
      ∀ t' n', n' ≠ [] → step (run init as) (.lookup t' n') = run init as := by
  have ok := (Ok.init (V := V)).run as
  generalize run (init : State V) as = s at *
  constructor
  · intro t n v hn hw
    obtain ⟨l, hl, _⟩ := ok.rep.set n v
    simp [run, step, hn, hw, hl]
  · intro t n v hw
    obtain ⟨l, hl, _⟩ := ok.rep.set n v
    refine ⟨by simp [step, hw, hl], by simp [step, hw, hl], fun t' h => ?_, fun t' n' v' => by simp [step, hw], fun t' n' h => by simp [step, hw, h]⟩
    simp [step, hw, Ne.symm h]

example : (run (init : State Nat) [.lock 0 ['x'] 1]).writer = some (0, ['x'], 1) := by decide

/-- C65 is false: one thread has the reference `attribute(name)` returned, another is about to assign to it. -/
theorem C65_data_race_false :
    Racing (run (init : State Nat) [.lock 0 ['x'] 1, .write 0, .lookup 1 ['x'], .lock 0 ['x'] 2]) 0 1 :=
  ⟨by decide, ['x'], 2, 0, rfl, rfl, rfl⟩

-- the reference shows the new value
example : (run (init : State Nat) [.lock 0 ['x'] 1, .write 0, .lookup 1 ['x'], .lock 0 ['y'] 5, .write 0, .lock 0 ['x'] 2, .write 0, .read 1]).seen 1
    = some 2 := by decide

end Rtti.Props
