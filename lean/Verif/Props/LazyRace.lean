import Verif.Model.LazyRace
import Verif.Lemmas.World
/-! C33: concurrent first look-ups of a lazily defined container. -/
set_option autoImplicit false
namespace Rtti.LazyRace

def holds : Pc → Bool
  | .owns | .running _ | .leaving | .unlocking => true
  | _ => false

structure Inv (n : Nat) (s : State) : Prop where
  one : ∀ t t', holds (s.pc t) = true → holds (s.pc t') = true → t = t'
  flag : ∀ t, holds (s.pc t) = true → s.flag = true
  le : s.invoked ≤ 1
  few : s.defined ≤ n
  gone : s.callback = false → s.invoked = 1 ∧ s.defined = n
  zero : s.invoked = 0 → s.defined = 0
  free : s.flag = false → s.callback = true → s.invoked = 0
  owns : ∀ t, s.pc t = .owns → s.callback = true → s.invoked = 0
  running : ∀ t i, s.pc t = .running i → s.callback = true ∧ s.invoked = 1 ∧ s.defined = i ∧ i ≤ n
  leaving : ∀ t, s.pc t = .leaving → s.callback = true ∧ s.invoked = 1 ∧ s.defined = n
  unlocking : ∀ t, s.pc t = .unlocking → s.callback = false
  sure : ∀ t, s.pc t = .query false → s.callback = false
  seen : ∀ t v, s.pc t = .done false v → v = n

theorem Inv.init (n : Nat) : Inv n init := by
  constructor <;> simp [LazyRace.init, holds]

theorem Inv.step {n : Nat} {s : State} (h : Inv n s) (t : Nat) : Inv n (step n s t) := by
  obtain ⟨h1, h2, h3, h4, h5, h6, h7, h8, h9, h10, h11, h12, h13⟩ := h
  unfold LazyRace.step
  cases e : s.pc t <;> dsimp only <;> (try split) <;> constructor <;> (try simp only [upd]) <;> grind [holds]

theorem Inv.run {n : Nat} (ts : List Nat) {s : State} (h : Inv n s) : Inv n (run n s ts) := by
  induction ts generalizing s with
  | nil => exact h
  | cons t ts ih =>
    unfold LazyRace.run
    split
    · exact h
    · exact ih (h.step t)

/-- steps a thread may still make -/
def left (n : Nat) : Pc → Nat
  | .start => n + 7
  | .checked => n + 6
  | .owns => n + 5
  | .running i => n - i + 4
  | .leaving => 3
  | .unlocking => 2
  | .query _ => 1
  | .done _ _ => 0

theorem step_other {n : Nat} {s : State} {t t' : Nat} (h : t ≠ t') : (step n s t).pc t' = s.pc t' := by
  unfold LazyRace.step
  cases s.pc t <;> dsimp only <;> (try split) <;> simp [upd, Ne.symm h]

theorem step_left {n : Nat} {s : State} {t : Nat} (h : (step n s t).ub = false) :
    left n ((step n s t).pc t) ≤ left n (s.pc t) - 1 := by
  unfold LazyRace.step at *
  cases e : s.pc t <;> rw [e] at h <;> dsimp only at h ⊢ <;> (try split) <;> simp_all [upd, left] <;> omega

theorem run_left {n : Nat} (t : Nat) (ts : List Nat) (s : State) :
    (run n s ts).ub = true ∨ left n ((run n s ts).pc t) ≤ left n (s.pc t) - ts.count t := by
  induction ts generalizing s with
  | nil => exact .inr (Nat.le_refl _)
  | cons t' ts ih =>
    unfold LazyRace.run
    split
    · exact .inl ‹_›
    · rcases ih (step n s t') with h | h
      · exact .inl h
      · cases hu : (step n s t').ub
        · refine .inr (Nat.le_trans h ?_)
          by_cases ht : t' = t
          · subst ht
            have := step_left hu
            simp only [List.count_cons_self]
            omega
          · rw [step_other ht, List.count_cons_of_ne (fun h => ht (by simpa using h))]
            exact Nat.le_refl _
        · cases ts <;> simp [LazyRace.run, hu]

theorem run_append {n : Nat} (a b : List Nat) (s : State) : run n s (a ++ b) = run n (run n s a) b := by
  induction a generalizing s with
  | nil => rfl
  | cons t a ih =>
    cases hu : s.ub
    · simp only [List.cons_append, run, hu, Bool.false_eq_true, if_false]
      exact ih _
    · have h : ∀ l, run n s l = s := fun l => by cases l <;> simp [run, hu]
      rw [h, h, h]

theorem run_running {n : Nat} (t : Nat) (k : Nat) {s : State} {i : Nat} (hu : s.ub = false) (hk : i + k = n) (h : s.pc t = .running i)
    (hd : s.defined = i) :
    ∃ pc, run n s (List.replicate (k + 4) t) = ⟨false, false, n, s.invoked, false, pc⟩ ∧ pc t = .done false n ∧
      ∀ t', t' ≠ t → pc t' = s.pc t' := by
  induction k generalizing s i with
  | zero =>
    have hi' : i = n := by omega
    refine ⟨upd (upd (upd (upd s.pc t .leaving) t .unlocking) t (.query false)) t (.done false n), ?_, by simp [upd], fun t' ht => by simp [upd, ht]⟩
    simp [List.replicate, run, step, hu, h, upd, hd, hi']
  | succ k ih =>
    have hi : i < n := by omega
    have e : step n s t = { s with defined := s.defined + 1, pc := upd s.pc t (.running (i + 1)) } := by
      unfold step
      rw [h]
      simp [hi]
    obtain ⟨pc, e', h1, h2⟩ := ih (s := step n s t) (i := i + 1) (by rw [e]; exact hu) (by omega) (by rw [e]; simp [upd]) (by rw [e]; simp [hd])
    refine ⟨pc, ?_, h1, fun t' ht => by rw [h2 t' ht, e]; simp [upd, ht]⟩
    rw [show k + 1 + 4 = (k + 4) + 1 by omega, List.replicate_succ, run, hu]
    rw [e'] at *
    simp [e]

theorem run_done {n : Nat} (t : Nat) (k : Nat) {s : State} {f : Bool} {v : Nat} (h : s.pc t = .done f v) :
    run n s (List.replicate k t) = s := by
  induction k with
  | zero => rfl
  | succ k ih =>
    rw [List.replicate_succ, run]
    split
    · rfl
    · rw [show step n s t = s by unfold step; rw [h]]
      exact ih

/-- no query is being made and the callback was run or not -/
structure Quiet (n : Nat) (s : State) : Prop where
  ub : s.ub = false
  flag : s.flag = false
  all : s.callback = false → s.defined = n ∧ s.invoked = 1
  none : s.callback = true → s.defined = 0 ∧ s.invoked = 0

theorem Quiet.query {n : Nat} {s : State} (h : Quiet n s) {t : Nat} (ht : s.pc t = .start) :
    Quiet n (run n s (List.replicate (n + 7) t)) ∧ (run n s (List.replicate (n + 7) t)).callback = false ∧
    (run n s (List.replicate (n + 7) t)).pc t = .done false n ∧
    ∀ t', t' ≠ t → (run n s (List.replicate (n + 7) t)).pc t' = s.pc t' := by
  cases hc : s.callback
  · obtain ⟨hd, hi⟩ := h.all hc
    let s' : State := { s with pc := upd (upd s.pc t (.query false)) t (.done false n) }
    have e : run n s (List.replicate (n + 7) t) = s' := by
      rw [show n + 7 = (n + 5) + 1 + 1 by omega, List.replicate_succ, List.replicate_succ]
      have e1 : step n s t = { s with pc := upd s.pc t (.query false) } := by unfold step; rw [ht]; simp [hc]
      have e2 : step n { s with pc := upd s.pc t (.query false) } t = s' := by simp [step, upd, s', hd]
      have hu := h.ub
      rw [run, hu, if_neg nofun, e1, run, if_neg (by rw [hu]; nofun), e2]
      exact run_done t _ (s := s') (f := false) (v := n) (by simp [s', upd])
    rw [e]
    exact ⟨⟨h.ub, h.flag, h.all, h.none⟩, hc, by simp [s', upd], fun t' h => by simp [s', upd, h]⟩
  · obtain ⟨hd, hi⟩ := h.none hc
    let s' : State := { s with flag := true, invoked := s.invoked + 1, pc := upd (upd (upd s.pc t .checked) t .owns) t (.running 0) }
    obtain ⟨pc, e', h1, h2⟩ := run_running (n := n) t n (s := s') (i := 0) h.ub (by omega) (by simp [s', upd]) hd
    have e : run n s (List.replicate (n + 7) t) = run n s' (List.replicate (n + 4) t) := by
      rw [show n + 7 = (n + 4) + 1 + 1 + 1 by omega, List.replicate_succ, List.replicate_succ, List.replicate_succ]
      simp [run, step, h.ub, ht, hc, upd, h.flag, s']
    rw [e, e']
    refine ⟨⟨rfl, rfl, fun _ => ⟨rfl, by simp [s', hi]⟩, nofun⟩, rfl, h1, fun t' h => ?_⟩
    rw [show State.pc ⟨false, false, n, s'.invoked, false, pc⟩ t' = pc t' from rfl, h2 t' h]
    simp [s', upd, h]

theorem Quiet.queries {n : Nat} (l : List Nat) {s : State} (h : Quiet n s) (hl : l.Nodup) (hs : ∀ t ∈ l, s.pc t = .start) :
    Quiet n (run n s (l.flatMap fun t => List.replicate (n + 7) t)) ∧
    (l ≠ [] → (run n s (l.flatMap fun t => List.replicate (n + 7) t)).callback = false) ∧
    (∀ t ∈ l, (run n s (l.flatMap fun t => List.replicate (n + 7) t)).pc t = .done false n) ∧
    ∀ t, t ∉ l → (run n s (l.flatMap fun t => List.replicate (n + 7) t)).pc t = s.pc t := by
  induction l generalizing s with
  | nil => exact ⟨h, fun h => absurd rfl h, nofun, fun _ _ => rfl⟩
  | cons t l ih =>
    obtain ⟨ht, hl⟩ := List.nodup_cons.1 hl
    obtain ⟨q, hc, hd, ho⟩ := h.query (hs t (.head _))
    obtain ⟨q', hc', hd', ho'⟩ := ih q hl fun t' ht' => by
      rw [ho t' (fun e => ht (e ▸ ht'))]
      exact hs t' (.tail _ ht')
    simp only [List.flatMap_cons, run_append]
    refine ⟨q', fun _ => ?_, fun t' ht' => ?_, fun t' ht' => ?_⟩
    · cases l with
      | nil => exact hc
      | cons _ _ => exact hc' nofun
    · cases ht' with
      | head => rw [ho' t ht]; exact hd
      | tail _ h => exact hd' t' h
    · rw [ho' t' fun h => ht' (.tail _ h), ho t' fun h => ht' (h ▸ .head _)]

end Rtti.LazyRace

namespace Rtti.Props
open Rtti.LazyRace

/-- Under every interleaving of any number of threads the callback is entered at most once, never after it was
    released, and makes each of its definitions at most once. -/
theorem C33_at_most_once_partial (n : Nat) (ts : List Nat) :
    (LazyRace.run n LazyRace.init ts).invoked ≤ 1 ∧ (LazyRace.run n LazyRace.init ts).defined ≤ n ∧
    (∀ t i, (LazyRace.run n LazyRace.init ts).pc t = .running i → (LazyRace.run n LazyRace.init ts).callback = true) ∧
    (∀ t t' i j, (LazyRace.run n LazyRace.init ts).pc t = .running i → (LazyRace.run n LazyRace.init ts).pc t' = .running j → t = t') := by
  have h := (Inv.init n).run ts
  refine ⟨h.le, h.few, fun t i e => (h.running t i e).1, fun t t' i j e e' => h.one t t' (by rw [e]; rfl) (by rw [e']; rfl)⟩

/-- A query that did not find the definition in progress sees all definitions: one that ran the callback itself,
    or that started after the callback had been released. (What is missing: queries that find it in progress.) -/
theorem C33_sees_all_partial (n : Nat) (ts : List Nat) (t v : Nat)
    (h : (LazyRace.run n LazyRace.init ts).pc t = .done false v) : v = n :=
  ((Inv.init n).run ts).seen t v h

/-- Queries never wait for each other: whatever the others do, a thread that made `n + 7` steps has its answer (or the program called
    through the null pointer). -/
theorem C33_wait_free (n : Nat) (ts : List Nat) (t : Nat) (h : n + 7 ≤ ts.count t) :
    (LazyRace.run n LazyRace.init ts).ub = true ∨ ∃ f v, (LazyRace.run n LazyRace.init ts).pc t = .done f v := by
  rcases run_left (n := n) t ts LazyRace.init with hu | hl
  · exact .inl hu
  · right
    have : left n ((LazyRace.run n LazyRace.init ts).pc t) = 0 := by
      have : left n (LazyRace.init.pc t) = n + 7 := rfl
      omega
    revert this
    cases (LazyRace.run n LazyRace.init ts).pc t <;> simp [left]

/-- Queries made one after the other, in whatever order, all see everything; the callback runs once, in the first of them. -/
theorem C33_in_turn (n : Nat) (l : List Nat) (hl : l.Nodup) (hne : l ≠ []) :
    let s := LazyRace.run n LazyRace.init (l.flatMap fun t => List.replicate (n + 7) t)
    s.ub = false ∧ s.callback = false ∧ s.invoked = 1 ∧ s.defined = n ∧ ∀ t ∈ l, s.pc t = .done false n := by
  have q : Quiet n LazyRace.init := ⟨rfl, rfl, nofun, fun _ => ⟨rfl, rfl⟩⟩
  obtain ⟨q, hc, hd, -⟩ := q.queries l hl fun _ _ => rfl
  exact ⟨q.ub, hc hne, (q.all (hc hne)).2, (q.all (hc hne)).1, hd⟩

private theorem views_le {n : Nat} (ts : List Nat) : ∀ s : State, Inv n s → (∀ t f v, s.pc t = .done f v → v ≤ n) →
    ∀ t f v, (LazyRace.run n s ts).pc t = .done f v → v ≤ n := by
  induction ts with
  | nil => intro s _ h; exact h
  | cons t ts ih =>
    intro s i h
    unfold LazyRace.run
    split
    · exact h
    · refine ih _ (i.step t) fun t' f v e => ?_
      by_cases ht : t = t'
      · subst ht
        unfold LazyRace.step at e
        have := i.few
        split at e
        · split at e <;> simp [upd] at e
        · split at e <;> simp [upd] at e
        · split at e
          · simp [upd] at e
          · rename_i hp _; simp [hp] at e
        · split at e <;> simp [upd] at e
        · simp [upd] at e
        · simp [upd] at e
        · simp [upd] at e; omega
        · exact h t f v e
      · rw [step_other ht] at e
        exact h t' f v e

/-- What a query that finds the definitions in progress can see: any number of them, from none to all. -/
theorem C33_views (n v : Nat) : (∃ ts t, (LazyRace.run n LazyRace.init ts).pc t = .done true v) ↔ v ≤ n := by
  constructor
  · rintro ⟨ts, t, h⟩
    exact views_le ts _ (Inv.init n) (fun t f v h => by cases h) t true v h
  · intro hv
    refine ⟨List.replicate (3 + v) 0 ++ [1, 1, 1], 1, ?_⟩
    have key : ∀ k, k ≤ n → LazyRace.run n LazyRace.init (List.replicate (3 + k) 0) =
        ⟨true, true, k, 1, false, upd LazyRace.init.pc 0 (.running k)⟩ := by
      intro k
      induction k with
      | zero =>
        intro _
        have : ∀ (a b c : Pc), upd (upd (upd LazyRace.init.pc 0 a) 0 b) 0 c = upd LazyRace.init.pc 0 c := by
          intro a b c; funext x; simp only [upd]; split <;> rfl
        simp only [List.replicate, LazyRace.run, LazyRace.step, LazyRace.init, upd, if_true, Bool.false_eq_true, if_false, Nat.zero_add]
        congr 1
        exact this .checked .owns (.running 0)
      | succ k ih =>
        intro hk
        rw [show 3 + (k + 1) = (3 + k) + 1 by omega, List.replicate_succ', run_append, ih (by omega)]
        simp only [LazyRace.run, LazyRace.step, upd, if_true, Bool.false_eq_true, if_false, show k < n by omega]
        congr 1
        funext x; simp only [upd]; split <;> rfl
    rw [run_append, key v hv]
    simp [LazyRace.run, LazyRace.step, upd, LazyRace.init]

/-- When a thread calls through the null pointer, the callback has run to its end. -/
theorem C33_null_late (n : Nat) (ts : List Nat) (h : (LazyRace.run n LazyRace.init ts).ub = true) :
    (LazyRace.run n LazyRace.init ts).callback = false ∧ (LazyRace.run n LazyRace.init ts).invoked = 1 ∧
    (LazyRace.run n LazyRace.init ts).defined = n := by
  have key : ∀ ts : List Nat, ∀ s : State, Inv n s → (s.ub = true → s.callback = false) →
      (LazyRace.run n s ts).ub = true → (LazyRace.run n s ts).callback = false := by
    intro ts
    induction ts with
    | nil => intro s _ h; exact h
    | cons t ts ih =>
      intro s i hs
      unfold LazyRace.run
      split
      · exact hs
      · rename_i hu
        refine ih _ (i.step t) fun e => ?_
        cases hp : s.pc t <;> simp only [LazyRace.step, hp] at e ⊢ <;> try exact absurd e hu
        · split at e <;> exact absurd e hu
        · split at e <;> exact absurd e hu
        · split at e
          · exact absurd e hu
          · simp_all
        · split at e <;> exact absurd e hu
  have hc := key ts _ (Inv.init n) (fun h => by cases h) h
  exact ⟨hc, ((Inv.init n).run ts).gone hc⟩

/-- C33 is false: while one thread runs the callback, another thread's query answers without its definitions. -/
theorem C33_partial_view_false :
    (LazyRace.run 3 LazyRace.init [0, 0, 0, 0, 1, 1, 1]).pc 1 = .done true 1 := by decide

/-- C33 is false: a thread that tested the pointer before it was reset and took the flag after it was cleared calls
    through the null pointer. -/
theorem C33_null_call_false :
    (LazyRace.run 1 LazyRace.init [1, 0, 0, 0, 0, 0, 0, 0, 1, 1]).ub = true := by decide

/-- C33 is false: the pointer is read without synchronisation while it is being reset (a data race). -/
theorem C33_data_race_false : Racing (LazyRace.run 1 LazyRace.init [0, 0, 0, 0, 0]) :=
  ⟨0, 1, by decide, by decide, by decide⟩

/-- C33: what a race is, in terms of what the threads do: the next step of one thread changes the pointer while another thread's next
    step depends on it. -/
theorem C33_race_meaning (n : Nat) (ts : List Nat) :
    Racing (LazyRace.run n LazyRace.init ts) ↔ ∃ t t', t ≠ t' ∧
      (LazyRace.step n (LazyRace.run n LazyRace.init ts) t).callback ≠ (LazyRace.run n LazyRace.init ts).callback ∧
      (LazyRace.step n { LazyRace.run n LazyRace.init ts with callback := !(LazyRace.run n LazyRace.init ts).callback } t').pc ≠
        (LazyRace.step n (LazyRace.run n LazyRace.init ts) t').pc := by
  have i := (Inv.init n).run ts
  generalize LazyRace.run n LazyRace.init ts = s at i ⊢
  have w : ∀ t, (LazyRace.step n s t).callback ≠ s.callback ↔ s.pc t = .leaving := by
    intro t
    unfold LazyRace.step
    cases e : s.pc t with
    | leaving => simp [(i.leaving t e).1]
    | start => dsimp only; split <;> simp
    | checked => dsimp only; split <;> simp
    | owns => dsimp only; split <;> simp
    | running k => dsimp only; split <;> simp
    | _ => simp
  have d : ∀ t, (LazyRace.step n { s with callback := !s.callback } t).pc ≠ (LazyRace.step n s t).pc ↔ s.pc t = .start ∨ s.pc t = .owns := by
    intro t
    have at_t : ∀ (a b : Pc), a ≠ b → upd s.pc t a ≠ upd s.pc t b := by
      intro a b h e
      have := congrFun e t
      simp [upd] at this
      exact h this
    have kept : ∀ a, a ≠ s.pc t → upd s.pc t a ≠ s.pc := by
      intro a h e
      have := congrFun e t
      simp [upd] at this
      exact h this
    unfold LazyRace.step
    cases e : s.pc t with
    | start => cases s.callback <;> simp <;> exact at_t _ _ nofun
    | owns =>
      cases s.callback <;> simp
      · exact kept _ (by rw [e]; nofun)
      · exact (kept _ (by rw [e]; nofun)).symm
    | checked => dsimp only; cases s.flag <;> simp
    | running k => dsimp only; split <;> simp
    | _ => simp
  constructor
  · rintro ⟨t, t', h1, h2, h3⟩
    exact ⟨t, t', h1, (w t).2 h2, (d t').2 h3⟩
  · rintro ⟨t, t', h1, h2, h3⟩
    exact ⟨t, t', h1, (w t).1 h2, (d t').1 h3⟩

-- two threads one after the other: both see everything
example : (LazyRace.run 2 LazyRace.init ([0, 0, 0, 0, 0, 0, 0, 0, 0] ++ [1, 1])).pc 0 = .done false 2 ∧
    (LazyRace.run 2 LazyRace.init ([0, 0, 0, 0, 0, 0, 0, 0, 0] ++ [1, 1])).pc 1 = .done false 2 := by decide

end Rtti.Props
