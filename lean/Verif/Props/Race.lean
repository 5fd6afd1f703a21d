import Verif.Lemmas.Race
/-
C18 and the concurrent clause of C19.
-/
namespace Rtti.Props
open Rtti Race

/-- C18: any number of threads, any programs (of non-empty names / full signatures), any interleaving:
    threads defining the same name get the same object, which is what later look-ups return at every
    later time and which is never deleted; nobody gets null; names stay unique; and whenever no call is
    in progress exactly the objects in the list are allocated (losers deleted, nothing leaked). -/
theorem C18_concurrent_definitions_agree (k : LookKind) (valid : TypeId → Bool)
    (programs : Nat → List Req) (hp : ∀ i, ∀ r ∈ programs i, Exact k r.name) (sched : List Nat) :
    let s := run k (init valid programs) sched
    (∀ i j r r' p q, (r, .obj p) ∈ (s.threads i).results → (r', .obj q) ∈ (s.threads j).results →
      r.name = r'.name → p = q) ∧
    (∀ i r p, (r, .obj p) ∈ (s.threads i).results → ∀ sched',
      look k (run k s sched').list r.name = some p ∧ (run k s sched').alive p = true) ∧
    (∀ i r, (r, .null) ∉ (s.threads i).results) ∧
    (s.list.items.map (·.name)).Nodup ∧
    ((∀ i, (s.threads i).pc = .idle) → ∀ p, s.alive p = true ↔ ∃ x ∈ s.list.items, x.ptr = p) := by
  intro s
  have hOk : ∀ r : Req, (fun r : Req => Exact k r.name) r → Exact k r.name := fun _ h => h
  have inv : RInv (fun r => Exact k r.name) s := (RInv.init valid programs hp).run hOk sched
  refine ⟨?_, ?_, ?_, inv.wf.nodup, ?_⟩
  · intro i j r r' p q h1 h2 e
    obtain ⟨a, b⟩ := (inv.thr i).results _ _ h1
    obtain ⟨_, d⟩ := (inv.thr j).results _ _ h2
    have := wf_ptr_unique inv.wf (Exact.ne_nil a) b d rfl e.symm
    injection this
  · intro i r p h1 sched'
    have inv' : RInv (fun r => Exact k r.name) (run k s sched') := inv.run hOk sched'
    have hres : ∀ (sched : List Nat) (s : State), (r, .obj p) ∈ (s.threads i).results →
        (r, .obj p) ∈ ((run k s sched).threads i).results := by
      intro sched
      induction sched with
      | nil => exact fun _ h => h
      | cons j js ih =>
        intro s h
        apply ih
        unfold Race.step
        have hset : ∀ t' : Thread, (∀ x, x ∈ (s.threads j).results → x ∈ t'.results) →
            (r, Outcome.obj p) ∈ ((upd s.threads j t') i).results := by
          intro t' ht
          by_cases e : i = j
          · subst e; rw [upd_same]; exact ht _ h
          · rw [upd_ne _ _ e]; exact h
        have hfin : ∀ (r' : Req) (o : Outcome), (r, Outcome.obj p) ∈
            ((upd s.threads j ((s.threads j).finish r' o)) i).results := by
          intro r' o
          apply hset
          intro x hx
          simp [Thread.finish, hx]
        dsimp only
        repeat' split
        all_goals first | exact h | exact hfin _ _ | exact hset _ (fun _ hx => hx)
    obtain ⟨a, b⟩ := (inv'.thr i).results _ _ (hres sched' s h1)
    exact ⟨(look_iff inv'.wf a p).2 b, (inv'.items _ b).1⟩
  · intro i r h
    exact ((inv.thr i).results _ _ h).2
  · intro hidle p
    constructor
    · intro ha
      rcases inv.owned p ha with h | ⟨i, h⟩
      · exact h
      · rw [hidle i] at h; cases h
    · rintro ⟨x, hx, rfl⟩; exact (inv.items x hx).1

/-- C18: every call ends: a thread inside a create function is done after at most six of its own steps,
    whatever the other threads do in between. -/
theorem C18_calls_end (k : LookKind) (s : State) (i : Nat) (sched : List Nat)
    (h : 6 ≤ sched.count i) :
    ∃ pre post, sched = pre ++ post ∧ ((run k s pre).threads i).pc = .idle := by
  have hown : ∀ s : State, (s.threads i).pc ≠ .idle →
      ((step k s i).threads i).pc.todo < (s.threads i).pc.todo := by
    intro s hne
    unfold Race.step
    dsimp only
    cases hpc : (s.threads i).pc with
    | idle => exact absurd hpc hne
    | _ =>
      dsimp only
      repeat' split
      all_goals simp [Thread.finish, Pc.todo]
  have hother : ∀ (s : State) j, j ≠ i → ((step k s j).threads i) = s.threads i := by
    intro s j hj
    unfold Race.step
    dsimp only
    repeat' split
    all_goals simp [upd_ne _ _ (Ne.symm hj)]
  have key : ∀ (sched : List Nat) (s : State), (s.threads i).pc.todo ≤ sched.count i →
      ∃ pre post, sched = pre ++ post ∧ ((run k s pre).threads i).pc = .idle := by
    intro sched
    induction sched with
    | nil =>
      intro s h
      refine ⟨[], [], rfl, ?_⟩
      cases hpc : (s.threads i).pc <;> simp [hpc, Pc.todo] at h
      exact hpc
    | cons j js ih =>
      intro s h
      by_cases hidle : (s.threads i).pc = .idle
      · exact ⟨[], j :: js, rfl, hidle⟩
      · have hle : ((step k s j).threads i).pc.todo ≤ js.count i := by
          by_cases e : j = i
          · subst e
            have := hown s hidle
            simp at h; omega
          · rw [hother s j e]
            simpa [List.count_cons, e] using h
        obtain ⟨pre, post, h1, h2⟩ := ih _ hle
        exact ⟨j :: pre, post, by rw [h1]; rfl, h2⟩
  refine key sched s (Nat.le_trans ?_ h)
  cases (s.threads i).pc <;> simp [Pc.todo]

/-- two threads defining one name, both past their first look-up before either adds -/
def exPrograms : Nat → List Req := fun i => if i < 2 then [⟨['a'], none⟩] else []
def exSched : List Nat := [0, 1, 0, 1, 0, 1, 0, 1, 0, 1, 1, 1]

example : (∀ i, ∀ r ∈ exPrograms i, Exact .byName r.name) ∧
    ((run .byName (init (fun _ => true) exPrograms) exSched).threads 0).results = [(⟨['a'], none⟩, .obj 1)] ∧
    ((run .byName (init (fun _ => true) exPrograms) exSched).threads 1).results = [(⟨['a'], none⟩, .obj 1)] ∧
    (run .byName (init (fun _ => true) exPrograms) exSched).alive 2 = false ∧
    (run .byName (init (fun _ => true) exPrograms) exSched).next = 3 := by
  refine ⟨?_, by decide, by decide, by decide, by decide⟩
  intro i r hr
  unfold exPrograms at hr
  split at hr
  · simp only [List.mem_singleton] at hr; subst hr; simp [Exact]
  · cases hr

/-! ### C19, several threads -/

/-- C19 is false with threads: two threads defining one type under two names can both succeed, leaving
    two classes for the type. -/
theorem C19_concurrent_false : ∃ (programs : Nat → List Req) (sched : List Nat),
    let s := run .byName (init (fun _ => true) programs) sched
    ∃ x ∈ s.list.items, ∃ y ∈ s.list.items, x ≠ y ∧ s.typeOf x.ptr = some 7 ∧ s.typeOf y.ptr = some 7 ∧
      (s.threads 0).results = [(⟨['a'], some 7⟩, .obj x.ptr)] ∧
      (s.threads 1).results = [(⟨['b'], some 7⟩, .obj y.ptr)] := by
  refine ⟨fun i => if i = 0 then [⟨['a'], some 7⟩] else if i = 1 then [⟨['b'], some 7⟩] else [],
    [0, 1, 0, 1, 0, 1, 0, 1, 0, 1, 0, 1], ⟨1, ['a']⟩, .head _, ⟨2, ['b']⟩, .tail _ (.head _), by decide, by decide,
    by decide, by decide, by decide⟩

/-- C18, why the names must be non-empty: of two threads that define a namespace without a name, one gets null, with nobody else
    about and whichever of them comes first. -/
theorem C18_empty_name_fails : ∃ programs : Nat → List Req, (∀ i, ∀ r ∈ programs i, r = ⟨[], none⟩) ∧
    ∀ i j, i ≠ j → i < 2 → j < 2 →
      let s := run .byName (init (fun _ => true) programs) (List.replicate 7 i ++ List.replicate 7 j)
      (s.threads i).results = [(⟨[], none⟩, .obj 1)] ∧ (s.threads j).results = [(⟨[], none⟩, .null)] ∧ s.list.items = [⟨1, []⟩] :=
  ⟨fun _ => [⟨[], none⟩], fun i r h => List.mem_singleton.1 h, fun i j h hi hj => by
    match i, j with
    | 0, 0 => exact absurd rfl h
    | 1, 1 => exact absurd rfl h
    | 0, 1 => decide
    | 1, 0 => decide
    | 0, n + 2 | 1, n + 2 => omega
    | n + 2, _ => omega⟩

/-- C19 with threads, what holds: if every type is always defined under one name (of this container),
    no interleaving yields two classes for a type. Missing: the same type under several names or
    containers (`C19_concurrent_false`). -/
theorem C19_concurrent_partial (valid : TypeId → Bool) (programs : Nat → List Req)
    (nameOf : TypeId → Str)
    (hp : ∀ i, ∀ r ∈ programs i, r.name ≠ [] ∧ ∀ t, r.type = some t → r.name = nameOf t)
    (sched : List Nat) :
    let s := run .byName (init valid programs) sched
    ∀ x ∈ s.list.items, ∀ y ∈ s.list.items, ∀ t, s.typeOf x.ptr = some t → s.typeOf y.ptr = some t →
      x = y := by
  intro s x hx y hy t h1 h2
  have inv : RInv (fun r => r.name ≠ [] ∧ ∀ t, r.type = some t → r.name = nameOf t) s :=
    (RInv.init valid programs hp).run (k := .byName) (fun _ h => h.1) sched
  obtain ⟨_, r, ⟨hr, hr'⟩, e, ht⟩ := inv.items x hx
  obtain ⟨_, r', ⟨_, hr2⟩, e', ht'⟩ := inv.items y hy
  have a := hr' t (by rw [← ht]; exact h1)
  have b := hr2 t (by rw [← ht']; exact h2)
  exact wf_ptr_unique inv.wf (n := nameOf t) (by rw [← a]; exact hr) hx hy (by rw [← e, a]) (by rw [← e', b])

/-- Nobody is refused without reason, whatever the interleaving: a call throws only if its type is not valid, or if a class for
    the same type is there. -/
theorem C19_refused (k : LookKind) (valid : TypeId → Bool) (programs : Nat → List Req) (hp : ∀ i, ∀ r ∈ programs i, Exact k r.name) (sched : List Nat)
    (i : Nat) (r : Req) (e : Err) :
    let s := run k (init valid programs) sched
    (r, .threw e) ∈ (s.threads i).results → ∃ ty, r.type = some ty ∧
      ((e = .invalidTypeId ∧ s.valid ty = false) ∨
       (e = .duplicateClass ∧ s.valid ty = true ∧ ∃ x ∈ s.list.items, s.typeOf x.ptr = some ty)) := by
  intro s h
  have inv : MInv s := (MInv.init valid programs).run (k := k) (fun _ h => h) (RInv.init valid programs hp) sched
  obtain ⟨ty, ht, h⟩ := inv.thr i r e h
  refine ⟨ty, ht, h.imp_right ?_⟩
  rintro ⟨a, b, c⟩
  cases hm : s.metaClass ty with
  | none => exact absurd hm c
  | some p =>
    obtain ⟨-, h1, x, hx, rfl⟩ := inv.mc ty p hm
    exact ⟨a, b, x, hx, h1⟩

/-- what a call does that nobody interrupts: the members afterwards, the class known for each type, the outcome -/
def alone (s : State) (r : Req) : List Item × (TypeId → Option Ptr) × Outcome :=
  match s.list.items.find? (·.name = r.name) with
  | some x => (s.list.items, s.metaClass, .obj x.ptr)
  | none =>
    match r.type with
    | none => (s.list.items ++ [⟨s.next, r.name⟩], s.metaClass, .obj s.next)
    | some t =>
      if s.valid t = false then (s.list.items, s.metaClass, .threw .invalidTypeId)
      else if s.metaClass t ≠ none then (s.list.items, s.metaClass, .threw .duplicateClass)
      else (s.list.items ++ [⟨s.next, r.name⟩], upd s.metaClass t (some s.next), .obj s.next)

theorem look_find {k : LookKind} {l : ItemList} (w : l.Wf) {n : Str} (hn : Exact k n) :
    look k l n = (l.items.find? (·.name = n)).map (·.ptr) := by
  cases h : l.items.find? (·.name = n) with
  | none =>
    refine (look_none w hn).2 fun x hx e => ?_
    have := List.find?_eq_none.1 h x hx
    simp [e] at this
  | some x =>
    have h1 := List.mem_of_find?_eq_some h
    have h2 : x.name = n := by simpa using List.find?_some h
    refine (look_iff w hn x.ptr).2 ?_
    rw [← h2]
    exact h1

/-- C18: a call that nobody interrupts does what the sequential function does; from any state that threads can reach. -/
theorem C18_alone (k : LookKind) (valid : TypeId → Bool) (programs : Nat → List Req) (hp : ∀ i, ∀ r ∈ programs i, Exact k r.name) (sched : List Nat)
    (i : Nat) (r : Req) (rest : List Req) :
    let s := run k (init valid programs) sched
    (s.threads i).pc = .idle → (s.threads i).todo = r :: rest → ∃ n, n ≤ 6 ∧
      let s' := run k s (List.replicate n i)
      (s'.list.items, s'.metaClass, s'.threads) =
        ((alone s r).1, (alone s r).2.1, upd s.threads i ⟨rest, .idle, (s.threads i).results ++ [(r, (alone s r).2.2)]⟩) ∧
      (s'.list.items ≠ s.list.items → s'.typeOf s.next = r.type ∧ s'.alive s.next = true) := by
  intro s hidle htodo
  have inv : RInv (fun r => Exact k r.name) s := (RInv.init valid programs hp).run (fun _ h => h) sched
  have hr : Exact k r.name := (inv.thr i).todo r (by rw [htodo]; simp)
  have hlook := look_find inv.wf hr
  have hfresh : ∀ x ∈ s.list.items, x.ptr ≠ s.next := by
    intro x hx e
    have := inv.lt _ (inv.items x hx).1
    omega
  have updupd : ∀ (f : Nat → Thread) (a b : Thread), upd (upd f i a) i b = upd f i b := by
    intro f a b; funext j; by_cases e : j = i <;> simp [upd, e]
  cases hf : s.list.items.find? (·.name = r.name) with
  | some x =>
    refine ⟨2, by decide, ?_⟩
    rw [hf] at hlook
    simp [List.replicate, run, Race.step, hidle, htodo, hlook, alone, hf, Thread.finish, updupd]
  | none =>
    rw [hf] at hlook
    have hadd : (s.list.add (some ⟨s.next, r.name⟩)).1.items = s.list.items ++ [⟨s.next, r.name⟩] ∧ (s.list.add (some ⟨s.next, r.name⟩)).2 = true := by
      have := inv.wf.add_spec ⟨s.next, r.name⟩
      rwa [if_neg] at this
      rintro (⟨x, hx, e⟩ | ⟨x, hx, e⟩)
      · exact hfresh x hx e
      · have := List.find?_eq_none.1 hf x hx
        simp [e] at this
    cases ht : r.type with
    | none =>
      refine ⟨5, by decide, ?_⟩
      simp [List.replicate, run, Race.step, hidle, htodo, hlook, alone, hf, ht, Thread.finish, updupd, hadd]
    | some t =>
      by_cases hv : s.valid t = true
      · cases hm : s.metaClass t with
        | some q =>
          refine ⟨3, by decide, ?_⟩
          simp [List.replicate, run, Race.step, hidle, htodo, hlook, alone, hf, ht, hv, hm, Thread.finish, updupd]
        | none =>
          refine ⟨6, by decide, ?_⟩
          simp [List.replicate, run, Race.step, hidle, htodo, hlook, alone, hf, ht, hv, hm, Thread.finish, updupd, hadd]
      · refine ⟨3, by decide, ?_⟩
        simp [List.replicate, run, Race.step, hidle, htodo, hlook, alone, hf, ht, hv, Thread.finish, updupd]

/-- a class, then its type again under another name, then an invalid type -/
def exClasses : Nat → List Req := fun i => if i = 0 then [⟨['a'], some 7⟩, ⟨['b'], some 7⟩, ⟨['c'], some 0⟩] else []
example : ((run .byName (init (· ≠ 0) exClasses) (List.replicate 12 0)).threads 0).results =
    [(⟨['a'], some 7⟩, .obj 1), (⟨['b'], some 7⟩, .threw .duplicateClass), (⟨['c'], some 0⟩, .threw .invalidTypeId)] := by decide
example : ((run .byName (init (· ≠ 0) exClasses) (List.replicate 6 0)).threads 0).pc = .idle ∧
    ((run .byName (init (· ≠ 0) exClasses) (List.replicate 6 0)).threads 0).todo = [⟨['b'], some 7⟩, ⟨['c'], some 0⟩] := by decide

end Rtti.Props
