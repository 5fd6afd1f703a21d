import Verif.Model.LazyFail
import Verif.Lemmas.World
/-! C91: a lazy definition that fails while several threads query the container. -/
set_option autoImplicit false
namespace Rtti.LazyFail

def holds : Pc → Bool
  | .owns | .running _ | .leaving | .unlocking => true
  | _ => false

/-- the thread runs the callback, or did -/
def ran : Pc → Bool
  | .running _ | .leaving | .unlocking | .threw => true
  | _ => false

structure Inv (k : Nat) (s : State) : Prop where
  one : ∀ t t', holds (s.pc t) = true → holds (s.pc t') = true → t = t'
  flag : ∀ t, holds (s.pc t) = true → s.flag = true
  le : s.invoked ≤ 1
  few : s.defined ≤ k
  gone : s.callback = false → s.invoked = 1 ∧ s.defined = k
  zero : s.invoked = 0 → s.defined = 0
  free : s.flag = false → s.callback = true → s.invoked = 0
  owns : ∀ t, s.pc t = .owns → s.callback = true → s.invoked = 0
  running : ∀ t i, s.pc t = .running i → s.callback = true ∧ s.invoked = 1 ∧ s.defined = i ∧ i ≤ k
  leaving : ∀ t, s.pc t = .leaving → s.callback = true ∧ s.invoked = 1 ∧ s.defined = k
  unlocking : ∀ t, s.pc t = .unlocking → s.callback = false
  threw : ∀ t, s.pc t = .threw → s.callback = false

theorem Inv.init (k : Nat) : Inv k init := by
  constructor <;> simp [LazyFail.init, holds]

theorem Inv.step {k : Nat} {s : State} (h : Inv k s) (t : Nat) : Inv k (step k s t) := by
  obtain ⟨h1, h2, h3, h4, h5, h6, h7, h8, h9, h10, h11, h12⟩ := h
  unfold LazyFail.step
  cases e : s.pc t <;> dsimp only <;> (try split) <;> constructor <;> (try simp only [upd]) <;> grind [holds]

/-- what the answers are, and who ran the callback -/
structure Ans (k : Nat) (s : State) : Prop where
  sure : ∀ t, s.pc t = .query false → s.callback = false
  seen : ∀ t v, s.pc t = .done false v → v = k ∧ s.callback = false
  most : ∀ t v, s.pc t = .done true v → v ≤ k
  null : s.ub = true → s.callback = false
  single : ∀ t t', ran (s.pc t) = true → ran (s.pc t') = true → t = t'
  entered : ∀ t, ran (s.pc t) = true → s.invoked = 1

theorem Ans.init (k : Nat) : Ans k init := by
  constructor <;> simp [LazyFail.init, ran]

theorem Ans.step {k : Nat} {s : State} (i : Inv k s) (h : Ans k s) (t : Nat) : Ans k (step k s t) := by
  have i1 := i.few
  have i2 := i.gone
  have i3 := i.owns
  have i4 := i.leaving
  have i5 := i.unlocking
  clear i
  obtain ⟨h1, h2, h3, h4, h5, h6⟩ := h
  unfold LazyFail.step
  cases e : s.pc t <;> dsimp only <;> (try split) <;> constructor <;> (try simp only [upd]) <;> grind [ran]

/-- once entered, some thread is the one that did -/
theorem someone_step {k : Nat} {s : State} (h : s.invoked = 0 ∨ ∃ t, ran (s.pc t) = true) (t : Nat) :
    (step k s t).invoked = 0 ∨ ∃ t', ran ((step k s t).pc t') = true := by
  have keep : ∀ p, (ran (s.pc t) = true → ran p = true) → (∃ t', ran (s.pc t') = true) → ∃ t', ran (upd s.pc t p t') = true := by
    rintro p hp ⟨t', ht⟩
    refine ⟨t', ?_⟩
    by_cases e : t' = t
    · subst e; simp [upd, hp ht]
    · simp [upd, e, ht]
  unfold LazyFail.step
  cases e : s.pc t <;> dsimp only <;> (try split) <;>
    first
    | exact h
    | exact h.imp id (keep _ (by rw [e]; simp [ran]))
    | exact .inr ⟨t, by simp [upd, ran]⟩

theorem Inv.run {k : Nat} (ts : List Nat) {s : State} (h : Inv k s) (a : Ans k s) :
    Inv k (run k s ts) ∧ Ans k (run k s ts) := by
  induction ts generalizing s with
  | nil => exact ⟨h, a⟩
  | cons t ts ih =>
    unfold LazyFail.run
    split
    · exact ⟨h, a⟩
    · exact ih (h.step t) (a.step h t)

theorem reach (k : Nat) (ts : List Nat) : Inv k (LazyFail.run k LazyFail.init ts) ∧ Ans k (LazyFail.run k LazyFail.init ts) :=
  (Inv.init k).run ts (Ans.init k)

theorem someone (k : Nat) (ts : List Nat) {s : State} (h : s.invoked = 0 ∨ ∃ t, ran (s.pc t) = true) :
    (LazyFail.run k s ts).invoked = 0 ∨ ∃ t, ran ((LazyFail.run k s ts).pc t) = true := by
  induction ts generalizing s with
  | nil => exact h
  | cons t ts ih =>
    unfold LazyFail.run
    split
    · exact h
    · exact ih (someone_step h t)

/-- steps a thread may still make -/
def left (k : Nat) : Pc → Nat
  | .start => k + 6
  | .checked => k + 5
  | .owns => k + 4
  | .running i => k - i + 3
  | .leaving => 2
  | .unlocking => 1
  | .query _ => 1
  | .done _ _ => 0
  | .threw => 0

theorem step_other {k : Nat} {s : State} {t t' : Nat} (h : t ≠ t') : (step k s t).pc t' = s.pc t' := by
  unfold LazyFail.step
  cases s.pc t <;> dsimp only <;> (try split) <;> simp [upd, Ne.symm h]

theorem step_left {k : Nat} {s : State} {t : Nat} (h : (step k s t).ub = false) :
    left k ((step k s t).pc t) ≤ left k (s.pc t) - 1 := by
  unfold LazyFail.step at *
  cases e : s.pc t <;> simp only [e] at h ⊢ <;> (try split) <;> simp_all [upd, left] <;> omega

theorem run_left {k : Nat} (t : Nat) (ts : List Nat) (s : State) :
    (run k s ts).ub = true ∨ left k ((run k s ts).pc t) ≤ left k (s.pc t) - ts.count t := by
  induction ts generalizing s with
  | nil => exact .inr (Nat.le_refl _)
  | cons t' ts ih =>
    unfold LazyFail.run
    split
    · exact .inl ‹_›
    · rcases ih (step k s t') with h | h
      · exact .inl h
      · cases hu : (step k s t').ub
        · refine .inr (Nat.le_trans h ?_)
          by_cases ht : t' = t
          · subst ht
            have := step_left hu
            simp only [List.count_cons_self]
            omega
          · rw [step_other ht, List.count_cons_of_ne (fun h => ht (by simpa using h))]
            exact Nat.le_refl _
        · cases ts <;> simp [LazyFail.run, hu]

theorem run_append {k : Nat} (a b : List Nat) (s : State) : run k s (a ++ b) = run k (run k s a) b := by
  induction a generalizing s with
  | nil => rfl
  | cons t a ih =>
    cases hu : s.ub
    · simp only [List.cons_append, run, hu, Bool.false_eq_true, if_false]
      exact ih _
    · have h : ∀ l, run k s l = s := fun l => by cases l <;> simp [run, hu]
      rw [h, h, h]

/-- the flag is taken by some thread; who found it taken did so because of one that ran the callback or is about to -/
structure Taken (s : State) : Prop where
  held : s.flag = true → ∃ t, holds (s.pc t) = true
  found : ∀ t v, s.pc t = .query true ∨ s.pc t = .done true v → s.invoked ≠ 0 ∨ ∃ t', s.pc t' = .owns

theorem Taken.step {k : Nat} {s : State} (i : Inv k s) (h : Taken s) (t : Nat) : Taken (step k s t) := by
  have hs : ∀ t', holds (s.pc t') = true → s.invoked ≠ 0 ∨ ∃ t', s.pc t' = .owns := by
    intro t' ht
    cases e : s.pc t' <;> rw [e] at ht <;> simp only [holds, Bool.false_eq_true] at ht
    · exact .inr ⟨t', e⟩
    · rw [(i.running t' _ e).2.1]; exact .inl nofun
    · rw [(i.leaving t' e).2.1]; exact .inl nofun
    · rw [(i.gone (i.unlocking t' e)).1]; exact .inl nofun
  have ho : ∀ p, s.pc t ≠ .owns → (∃ t', s.pc t' = .owns) → ∃ t', upd s.pc t p t' = .owns := by
    rintro p hn ⟨t', e⟩
    refine ⟨t', ?_⟩
    have : t' ≠ t := fun e' => hn (e' ▸ e)
    simp [upd, this, e]
  have hh : ∀ p, (holds (s.pc t) = true → holds p = true) → (∃ t', holds (s.pc t') = true) → ∃ t', holds (upd s.pc t p t') = true := by
    rintro p hp ⟨t', ht⟩
    refine ⟨t', ?_⟩
    by_cases e : t' = t
    · subst e; simp [upd, hp ht]
    · simp [upd, e, ht]
  have one : ∀ p t' v, (upd s.pc t p t' = .query true ∨ upd s.pc t p t' = .done true v) →
      (t' = t ∧ (p = .query true ∨ p = .done true v)) ∨ (s.pc t' = .query true ∨ s.pc t' = .done true v) := by
    intro p t' v h
    by_cases e : t' = t
    · subst e; simp [upd] at h; exact .inl ⟨rfl, h⟩
    · simp [upd, e] at h; exact .inr h
  unfold LazyFail.step
  cases e : s.pc t with
  | start =>
    dsimp only
    split <;> refine ⟨fun hf => hh _ (by rw [e]; nofun) (h.held hf), fun t' v hp => ?_⟩ <;>
      rcases one _ _ _ hp with ⟨-, h' | h'⟩ | h' <;> first | exact (h.found t' v h').imp id (ho _ (by rw [e]; nofun)) | cases h'
  | checked =>
    dsimp only
    split
    · rename_i hf
      refine ⟨fun hf => hh _ (by rw [e]; nofun) (h.held hf), fun t' v hp => ?_⟩
      rcases one _ _ _ hp with - | h'
      · obtain ⟨t2, h2⟩ := h.held hf
        exact (hs t2 h2).imp id (ho _ (by rw [e]; nofun))
      · exact (h.found t' v h').imp id (ho _ (by rw [e]; nofun))
    · exact ⟨fun _ => ⟨t, by simp [upd, holds]⟩, fun _ _ _ => .inr ⟨t, by simp [upd]⟩⟩
  | owns =>
    dsimp only
    split
    · exact ⟨fun hf => hh _ (fun _ => rfl) (h.held hf), fun _ _ _ => .inl (Nat.succ_ne_zero _)⟩
    · exact ⟨h.held, h.found⟩
  | running i' =>
    have hi : s.invoked ≠ 0 := by rw [(i.running t _ e).2.1]; nofun
    dsimp only
    split <;> exact ⟨fun hf => hh _ (fun _ => rfl) (h.held hf), fun _ _ _ => .inl hi⟩
  | leaving =>
    have hi : s.invoked ≠ 0 := by rw [(i.leaving t e).2.1]; nofun
    exact ⟨fun hf => hh _ (fun _ => rfl) (h.held hf), fun _ _ _ => .inl hi⟩
  | unlocking =>
    have hi : s.invoked ≠ 0 := by rw [(i.gone (i.unlocking t e)).1]; nofun
    exact ⟨nofun, fun _ _ _ => .inl hi⟩
  | query f =>
    refine ⟨fun hf => hh _ (by rw [e]; nofun) (h.held hf), fun t' v hp => ?_⟩
    rcases one _ _ _ hp with ⟨-, h' | h'⟩ | h'
    · cases h'
    · cases h'
      exact (h.found t s.defined (.inl e)).imp id (ho _ (by rw [e]; nofun))
    · exact (h.found t' v h').imp id (ho _ (by rw [e]; nofun))
  | done f v => exact h
  | threw => exact h

theorem taken {k : Nat} (ts : List Nat) {s : State} (i : Inv k s) (h : Taken s) : Taken (LazyFail.run k s ts) := by
  induction ts generalizing s with
  | nil => exact h
  | cons t ts ih =>
    unfold LazyFail.run
    split
    · exact h
    · exact ih (i.step t) (h.step i t)

/-- once the callback was released nothing is changed by a query that starts -/
theorem after {k : Nat} (ts : List Nat) {s : State} (i : Inv k s) (hc : s.callback = false) (t : Nat)
    (h : s.pc t = .start ∨ s.pc t = .query false ∨ s.pc t = .done false k) :
    let r := LazyFail.run k s ts
    r.callback = false ∧ (r.pc t = .start ∨ r.pc t = .query false ∨ r.pc t = .done false k) := by
  induction ts generalizing s with
  | nil => exact ⟨hc, h⟩
  | cons t' ts ih =>
    unfold LazyFail.run
    split
    · exact ⟨hc, h⟩
    · have hd := (i.gone hc).2
      refine ih (i.step t') ?_ ?_
      · unfold LazyFail.step
        split <;> (try split) <;> first | exact hc | rfl
      · by_cases e : t' = t
        · subst e
          unfold LazyFail.step
          rcases h with h | h | h <;> rw [h] <;> simp [upd, hc, hd, h]
        · rw [step_other e]; exact h

theorem run_running {k : Nat} (t : Nat) (j : Nat) {s : State} {i : Nat} (hu : s.ub = false) (hk : i + j = k) (h : s.pc t = .running i)
    (hd : s.defined = i) :
    ∃ pc, run k s (List.replicate (j + 3) t) = ⟨false, false, k, s.invoked, false, pc⟩ ∧ pc t = .threw ∧
      ∀ t', t' ≠ t → pc t' = s.pc t' := by
  induction j generalizing s i with
  | zero =>
    have hi' : i = k := by omega
    refine ⟨upd (upd (upd s.pc t .leaving) t .unlocking) t .threw, ?_, by simp [upd], fun t' ht => by simp [upd, ht]⟩
    simp [List.replicate, run, step, hu, h, upd, hd, hi']
  | succ j ih =>
    have hi : i < k := by omega
    have e : step k s t = { s with defined := s.defined + 1, pc := upd s.pc t (.running (i + 1)) } := by
      unfold step
      rw [h]
      simp [hi]
    obtain ⟨pc, e', h1, h2⟩ := ih (s := step k s t) (i := i + 1) (by rw [e]; exact hu) (by omega) (by rw [e]; simp [upd]) (by rw [e]; simp [hd])
    refine ⟨pc, ?_, h1, fun t' ht => by rw [h2 t' ht, e]; simp [upd, ht]⟩
    rw [show j + 1 + 3 = (j + 3) + 1 by omega, List.replicate_succ, run, hu]
    rw [e'] at *
    simp [e]

theorem run_done {k : Nat} (t : Nat) (j : Nat) {s : State} {f : Bool} {v : Nat} (h : s.pc t = .done f v) :
    run k s (List.replicate j t) = s := by
  induction j with
  | zero => rfl
  | succ j ih =>
    rw [List.replicate_succ, run]
    split
    · rfl
    · rw [show step k s t = s by unfold step; rw [h]]
      exact ih

theorem query_after {k : Nat} {s : State} (hu : s.ub = false) (hc : s.callback = false) (hd : s.defined = k) {t : Nat}
    (ht : s.pc t = .start) :
    run k s (List.replicate (k + 6) t) = { s with pc := upd (upd s.pc t (.query false)) t (.done false k) } := by
  rw [show k + 6 = (k + 4) + 1 + 1 by omega, List.replicate_succ, List.replicate_succ]
  have e1 : step k s t = { s with pc := upd s.pc t (.query false) } := by unfold step; rw [ht]; simp [hc]
  have e2 : step k { s with pc := upd s.pc t (.query false) } t =
      { s with pc := upd (upd s.pc t (.query false)) t (.done false k) } := by simp [step, upd, hd]
  rw [run, if_neg (by rw [hu]; nofun), e1, run, if_neg (by show ¬ s.ub = true; rw [hu]; nofun), e2]
  exact run_done t _ (s := { s with pc := upd (upd s.pc t (.query false)) t (.done false k) }) (f := false) (v := k) (by simp [upd])

theorem queries_after {k : Nat} (l : List Nat) {s : State} (hu : s.ub = false) (hc : s.callback = false) (hf : s.flag = false)
    (hd : s.defined = k) (hi : s.invoked = 1)
    (hl : l.Nodup) (hs : ∀ t ∈ l, s.pc t = .start) :
    let r := run k s (l.flatMap fun t => List.replicate (k + 6) t)
    (r.ub = false ∧ r.callback = false ∧ r.flag = false ∧ r.defined = k ∧ r.invoked = 1) ∧
    (∀ t ∈ l, r.pc t = .done false k) ∧ ∀ t, t ∉ l → r.pc t = s.pc t := by
  induction l generalizing s with
  | nil => exact ⟨⟨hu, hc, hf, hd, hi⟩, nofun, fun _ _ => rfl⟩
  | cons t l ih =>
    obtain ⟨ht, hl⟩ := List.nodup_cons.1 hl
    simp only [List.flatMap_cons, run_append]
    rw [query_after hu hc hd (hs t (.head _))]
    obtain ⟨h1, h2, h3⟩ := ih (s := { s with pc := upd (upd s.pc t (.query false)) t (.done false k) }) hu hc hf hd hi hl
      fun t' ht' => by
        have hn : t' ≠ t := fun e => ht (e ▸ ht')
        show upd (upd s.pc t (.query false)) t (.done false k) t' = .start
        simp [upd, hn, hs t' (.tail _ ht')]
    refine ⟨h1, fun t' ht' => ?_, fun t' ht' => ?_⟩
    · cases ht' with
      | head => rw [h3 t ht]; simp [upd]
      | tail _ h => exact h2 t' h
    · rw [h3 t' fun h => ht' (.tail _ h)]
      have : t' ≠ t := fun e => ht' (e ▸ .head _)
      simp [upd, this]

end Rtti.LazyFail

namespace Rtti.Props
open Rtti.LazyFail

/-- Under every interleaving of any number of threads the failing callback is entered at most once and never after it was released,
    and at most one query ends with the exception. By then the callback was released with its `k` definitions in place. -/
theorem C91_at_most_one (k : Nat) (ts : List Nat) :
    (LazyFail.run k LazyFail.init ts).invoked ≤ 1 ∧ (LazyFail.run k LazyFail.init ts).defined ≤ k ∧
    (∀ t i, (LazyFail.run k LazyFail.init ts).pc t = .running i → (LazyFail.run k LazyFail.init ts).callback = true) ∧
    (∀ t, (LazyFail.run k LazyFail.init ts).pc t = .threw →
      (LazyFail.run k LazyFail.init ts).callback = false ∧ (LazyFail.run k LazyFail.init ts).defined = k) ∧
    (∀ t t', (LazyFail.run k LazyFail.init ts).pc t = .threw → (LazyFail.run k LazyFail.init ts).pc t' = .threw → t = t') := by
  obtain ⟨i, a⟩ := reach k ts
  exact ⟨i.le, i.few, fun t j e => (i.running t j e).1, fun t e => ⟨i.threw t e, (i.gone (i.threw t e)).2⟩,
    fun t t' e e' => a.single t t' (by rw [e]; rfl) (by rw [e']; rfl)⟩

/-- The exception is not lost: when every query that was begun is over, and there was one, exactly one of them ended with it. The
    container is then as after any lazy definition: the callback is gone and the flag is clear. -/
theorem C91_exactly_one (k : Nat) (ts : List Nat)
    (over : ∀ t, (LazyFail.run k LazyFail.init ts).pc t = .start ∨ (∃ f v, (LazyFail.run k LazyFail.init ts).pc t = .done f v) ∨
      (LazyFail.run k LazyFail.init ts).pc t = .threw)
    (some : ∃ t, (LazyFail.run k LazyFail.init ts).pc t ≠ .start) :
    (∃ t, (LazyFail.run k LazyFail.init ts).pc t = .threw ∧ ∀ t', (LazyFail.run k LazyFail.init ts).pc t' = .threw → t' = t) ∧
    (LazyFail.run k LazyFail.init ts).callback = false ∧ (LazyFail.run k LazyFail.init ts).flag = false ∧
    (LazyFail.run k LazyFail.init ts).invoked = 1 ∧ (LazyFail.run k LazyFail.init ts).defined = k := by
  obtain ⟨i, a⟩ := reach k ts
  have tk : Taken (LazyFail.run k LazyFail.init ts) :=
    taken ts (Inv.init k) ⟨(fun h => by cases h), fun t v h => by rcases h with h | h <;> cases h⟩
  have so := someone k ts (s := LazyFail.init) (.inl rfl)
  generalize LazyFail.run k LazyFail.init ts = s at *
  have hi : s.invoked ≠ 0 := by
    obtain ⟨t, ht⟩ := some
    rcases over t with h | ⟨f, v, h⟩ | h
    · exact absurd h ht
    · cases f with
      | false => rw [(i.gone (a.seen t v h).2).1]; nofun
      | true =>
        rcases tk.found t v (.inr h) with h | ⟨t', h⟩
        · exact h
        · rcases over t' with h' | ⟨f, v, h'⟩ | h' <;> rw [h] at h' <;> cases h'
    · rw [(i.gone (i.threw t h)).1]; nofun
  obtain ⟨t, ht⟩ := so.resolve_left hi
  have hth : s.pc t = .threw := by
    rcases over t with h | ⟨f, v, h⟩ | h
    · rw [h] at ht; cases ht
    · rw [h] at ht; cases ht
    · exact h
  refine ⟨⟨t, hth, fun t' h' => a.single t' t (by rw [h']; rfl) (by rw [hth]; rfl)⟩, i.threw t hth, ?_, i.gone (i.threw t hth)⟩
  cases hf : s.flag
  · rfl
  · obtain ⟨t', h⟩ := tk.held hf
    rcases over t' with h' | ⟨f, v, h'⟩ | h' <;> rw [h'] at h <;> cases h

/-- What the queries that do not fail see: all `k` definitions made before the exception if they did not find the definition in progress,
    at most those if they did. -/
theorem C91_answers_partial (k : Nat) (ts : List Nat) (t v : Nat) (f : Bool)
    (h : (LazyFail.run k LazyFail.init ts).pc t = .done f v) : v ≤ k ∧ (f = false → v = k) := by
  obtain ⟨-, a⟩ := reach k ts
  cases f with
  | false => have := (a.seen t v h).1; omega
  | true => exact ⟨a.most t v h, nofun⟩

/-- A query begun after the exception left another one is not told: whatever the threads do, it does not fail, and answers with the `k`
    definitions that were made. -/
theorem C91_later (k : Nat) (ts ts' : List Nat) (t t0 : Nat) (h0 : (LazyFail.run k LazyFail.init ts).pc t0 = .threw)
    (ht : (LazyFail.run k LazyFail.init ts).pc t = .start) :
    (LazyFail.run k LazyFail.init (ts ++ ts')).callback = false ∧
    ((LazyFail.run k LazyFail.init (ts ++ ts')).pc t = .start ∨ (LazyFail.run k LazyFail.init (ts ++ ts')).pc t = .query false ∨
      (LazyFail.run k LazyFail.init (ts ++ ts')).pc t = .done false k) := by
  obtain ⟨i, a⟩ := reach k ts
  rw [LazyFail.run_append]
  exact after ts' i (i.threw t0 h0) t (.inl ht)

/-- No query waits for another: whatever the others do, a thread that made `k + 6` steps has its answer or the exception (or the program
    called through the null pointer). -/
theorem C91_wait_free (k : Nat) (ts : List Nat) (t : Nat) (h : k + 6 ≤ ts.count t) :
    (LazyFail.run k LazyFail.init ts).ub = true ∨ (∃ f v, (LazyFail.run k LazyFail.init ts).pc t = .done f v) ∨
    (LazyFail.run k LazyFail.init ts).pc t = .threw := by
  rcases LazyFail.run_left (k := k) t ts LazyFail.init with hu | hl
  · exact .inl hu
  · right
    have : LazyFail.left k ((LazyFail.run k LazyFail.init ts).pc t) = 0 := by
      have : LazyFail.left k (LazyFail.init.pc t) = k + 6 := rfl
      omega
    revert this
    cases (LazyFail.run k LazyFail.init ts).pc t <;> simp [LazyFail.left]

/-- Queries made one after the other: the first ends with the exception, every other answers with the `k` definitions. -/
theorem C91_in_turn (k : Nat) (t0 : Nat) (l : List Nat) (hl : (t0 :: l).Nodup) :
    let s := LazyFail.run k LazyFail.init ((t0 :: l).flatMap fun t => List.replicate (k + 6) t)
    (s.ub = false ∧ s.callback = false ∧ s.flag = false ∧ s.defined = k ∧ s.invoked = 1) ∧ s.pc t0 = .threw ∧
    ∀ t ∈ l, s.pc t = .done false k := by
  obtain ⟨h0, hl⟩ := List.nodup_cons.1 hl
  let s' : State := ⟨true, true, 0, 1, false, upd (upd (upd LazyFail.init.pc t0 .checked) t0 .owns) t0 (.running 0)⟩
  obtain ⟨pc, e', h1, h2⟩ := LazyFail.run_running (k := k) t0 k (s := s') (i := 0) rfl (by omega) (by simp [s', upd]) rfl
  have e : LazyFail.run k LazyFail.init (List.replicate (k + 6) t0) = ⟨false, false, k, 1, false, pc⟩ := by
    rw [show k + 6 = (k + 3) + 1 + 1 + 1 by omega, List.replicate_succ, List.replicate_succ, List.replicate_succ, ← e']
    simp [LazyFail.run, LazyFail.step, LazyFail.init, upd, s']
  simp only [List.flatMap_cons, LazyFail.run_append, e]
  obtain ⟨g1, g2, g3⟩ := queries_after (k := k) l (s := ⟨false, false, k, 1, false, pc⟩) rfl rfl rfl rfl rfl hl fun t ht => by
    have : t ≠ t0 := fun e => h0 (e ▸ ht)
    show pc t = .start
    rw [h2 t this]
    simp [s', upd, this, LazyFail.init]
  exact ⟨g1, by rw [g3 t0 h0]; exact h1, g2⟩

/-- When a thread calls through the null pointer, the callback has failed and was released. -/
theorem C91_null_late (k : Nat) (ts : List Nat) (h : (LazyFail.run k LazyFail.init ts).ub = true) :
    (LazyFail.run k LazyFail.init ts).callback = false ∧ (LazyFail.run k LazyFail.init ts).invoked = 1 ∧
    (LazyFail.run k LazyFail.init ts).defined = k := by
  obtain ⟨i, a⟩ := reach k ts
  exact ⟨a.null h, i.gone (a.null h)⟩

/-- C91 is false: a query that finds the definition in progress answers without the definitions made before the exception, and is not told
    that it failed. -/
theorem C91_view_false : ∃ ts, (LazyFail.run 1 LazyFail.init ts).pc 0 = .threw ∧ (LazyFail.run 1 LazyFail.init ts).pc 1 = .done true 0 ∧
    (LazyFail.run 1 LazyFail.init ts).ub = false :=
  ⟨[0, 0, 0, 1, 1, 1, 0, 0, 0, 0], by decide⟩

/-- C91 is false: a query that was between the test and the exchange while another one failed calls through the null pointer. -/
theorem C91_null_false : ∃ ts, (LazyFail.run 1 LazyFail.init ts).pc 0 = .threw ∧ (LazyFail.run 1 LazyFail.init ts).ub = true :=
  ⟨[1, 0, 0, 0, 0, 0, 0, 0, 1, 1], by decide⟩

-- three threads: one fails, one finds it in progress, one comes later
example : (List.range 3).map (LazyFail.run 2 LazyFail.init [0, 0, 0, 0, 1, 1, 1, 0, 0, 0, 0, 2, 2]).pc =
    [.threw, .done true 1, .done false 2] := by decide
-- the hypotheses of `C91_exactly_one`
example : let s := LazyFail.run 2 LazyFail.init [0, 0, 0, 0, 1, 1, 1, 0, 0, 0, 0, 2, 2]
    (∀ t < 3, (∃ f ∈ [true, false], ∃ v < 3, s.pc t = .done f v) ∨ s.pc t = .threw) ∧ s.flag = false := by decide
-- the hypotheses of `C91_later` and of `C91_null_late`
example : (LazyFail.run 2 LazyFail.init (List.replicate 8 5)).pc 5 = .threw ∧ (LazyFail.run 2 LazyFail.init (List.replicate 8 5)).pc 3 = .start := by
  decide
example : (LazyFail.run 0 LazyFail.init [1, 0, 0, 0, 0, 0, 0, 1, 1]).ub = true := by decide
example : 2 + 6 ≤ (List.replicate 8 5).count 5 := by decide
example : ([4, 7, 2] : List Nat).Nodup := by decide

end Rtti.Props
