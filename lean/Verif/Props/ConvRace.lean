import Verif.Lemmas.ConvRace
/-! C72: converters used by several threads. -/
set_option autoImplicit false
namespace Rtti.Props
open Rtti Spec ConvRace

/-- C72: under every interleaving the calls answer as if made one after the other, in the order of the log: the log is a
    sequential run, it contains the calls of every thread in the order and with the answers the thread saw (and nothing else),
    and what was logged is never revised. For a registration the function that counts is the one in the static variable: it is
    one that some thread passed, with a functor of the same type, and the same for all registrations with that type. -/
theorem C72_linearizable (programs : Nat → List Req) (is is' : List Nat) :
    let s := run (init programs) is
    Seq (fun _ => none) s.log ∧
    (∀ i, (s.threads i).pc = .idle →
      (s.threads i).results = (s.log.filter (·.thread == i)).map (fun e => (e.req, e.ans)) ∧
      programs i = (s.threads i).results.map (·.1) ++ (s.threads i).todo) ∧
    s.log <+: (run (init programs) (is ++ is')).log ∧
    (∀ e ∈ s.log, ∀ k f v, e.req = .register k f v → ∃ w j, e.used = some w ∧ Req.register k f w ∈ programs j) ∧
    (∀ e ∈ s.log, ∀ e' ∈ s.log, ∀ k f v v', e.req = .register k f v → e'.req = .register k f v' → e.used = e'.used) := by
  intro s
  have o : Ok programs s := (Ok.init programs).run is
  refine ⟨o.seq, fun i hi => ?_, ?_, fun e he k f v er => ?_, fun e he e' he' k f v v' er er' => ?_⟩
  · have h1 := o.res i
    have h2 := o.prog i
    rw [hi] at h1 h2
    exact ⟨by simpa [pending, mine] using h1.symm, by simpa [current] using h2⟩
  · rw [run_append]
    show s.log <+: (run s is').log
    generalize s = s
    induction is' generalizing s with
    | nil => exact List.prefix_refl _
    | cons i is' ih =>
      refine List.IsPrefix.trans ?_ (ih _)
      cases hs : step s i with
      | none => exact List.prefix_refl _
      | some s' =>
        simp only [step] at hs
        repeat' split at hs
        all_goals first
          | (cases hs; done)
          | (cases hs; first | exact List.prefix_refl _ | exact List.prefix_append _ _)
  · obtain ⟨w, e1, e2⟩ := o.used e he k f v er
    obtain ⟨j, hj⟩ := o.src k f w e2
    exact ⟨w, j, e1, hj⟩
  · obtain ⟨w, e1, e2⟩ := o.used e he k f v er
    obtain ⟨w', e1', e2'⟩ := o.used e' he' k f v' er'
    rw [e2] at e2'; cases e2'
    rw [e1, e1']

/-- C72, as one would have it: the function that counts is the one passed. Holds if no two different functors of one type are
    registered for a pair of types (each lambda expression has a type of its own; all functions `To(From)` share one). -/
theorem C72_own_function_partial (programs : Nat → List Req)
    (hf : ∀ i j k f v w, Req.register k f v ∈ programs i → Req.register k f w ∈ programs j → v = w) (is : List Nat) :
    let s := run (init programs) is
    ∀ e ∈ s.log, ∀ k f v, e.req = .register k f v → e.used = some v := by
  intro s e he k f v er
  obtain ⟨_, _, _, h4, _⟩ := C72_linearizable programs is []
  obtain ⟨w, j, e1, hj⟩ := h4 e he k f v er
  have o : Ok programs s := (Ok.init programs).run is
  have hm : Req.register k f v ∈ programs e.thread := er ▸ o.asked he
  rw [e1, hf _ _ _ _ _ _ hm hj]

/-- C72 is false of the code: of two threads that register two functions of one type, one is told that its function was
    registered, and later conversions run the other one. -/
theorem C72_own_function_false : ∃ (programs : Nat → List Req) (is : List Nat),
    let s := run (init programs) is
    (s.threads 1).results = [(.register 0 0 8, .flag true)] ∧ (s.threads 0).results = [(.register 0 0 7, .flag false)] ∧
    (s.threads 2).results = [(.convert 0, .ran (some 7))] :=
  ⟨fun i => if i = 0 then [.register 0 0 7] else if i = 1 then [.register 0 0 8] else if i = 2 then [.convert 0] else [],
    [0, 0, 0, 1, 1, 1, 0, 2, 2, 2], by decide +kernel⟩

/-- C72: of all threads that register a converter for a pair of types, exactly one is told it succeeded, if none unregisters it. -/
theorem C72_one_winner (programs : Nat → List Req) (k : Nat) (hu : ∀ i, Req.unregister k ∉ programs i) (is : List Nat) :
    let s := run (init programs) is
    s.log.countP (Won k) ≤ 1 ∧ ((∃ e ∈ s.log, ∃ f v, e.req = .register k f v) → s.log.countP (Won k) = 1) := by
  intro s
  have o : Ok programs s := (Ok.init programs).run is
  exact (seq_won o.seq fun e he er => hu e.thread (er ▸ o.asked he)).2 rfl

/-- C72: no thread waits forever: while a thread has something left to do, some thread can move, ... -/
theorem C72_no_deadlock (programs : Nat → List Req) (is : List Nat) {i : Nat}
    (hi : ((run (init programs) is).threads i).pc ≠ .idle ∨ ((run (init programs) is).threads i).todo ≠ []) :
    ∃ j s', step (run (init programs) is) j = some s' :=
  ((Ok.init programs).run is).progress hi

/-- steps in which thread `i` moves -/
def moves (i : Nat) : State → List Nat → Nat
  | _, [] => 0
  | s, j :: js => (if j = i ∧ (step s j).isSome then 1 else 0) + moves i ((step s j).getD s) js

/-- ... and a thread is done with its calls after at most four moves for each. -/
theorem C72_ends (programs : Nat → List Req) (is : List Nat) (i : Nat) : moves i (init programs) is ≤ 4 * (programs i).length := by
  let cost : Pc → Nat := fun | .idle => 0 | .guard .. => 3 | .make .. => 2 | .add .. => 1 | .lock _ => 2 | .invoke .. => 1
  have key : ∀ (is : List Nat) (s : State), moves i s is ≤ 4 * (s.threads i).todo.length + cost (s.threads i).pc := by
    intro is
    induction is with
    | nil => intro s; simp [moves]
    | cons j js ih =>
      intro s
      have ih' := ih ((step s j).getD s)
      have hstep : (if j = i ∧ (step s j).isSome then 1 else 0) +
          (4 * (((step s j).getD s).threads i).todo.length + cost (((step s j).getD s).threads i).pc) ≤
          4 * (s.threads i).todo.length + cost (s.threads i).pc := by
        by_cases e : j = i
        · subst e
          cases epc : (s.threads j).pc with
          | idle =>
            cases et : (s.threads j).todo with
            | nil => simp [step, epc, et]
            | cons r rest => cases r <;> simp [step, epc, et, upd, cost] <;> omega
          | guard k f v => cases es : s.static k f <;> simp [step, epc, es, State.put, upd, cost] <;> omega
          | make k f v => simp [step, epc, State.put, upd, cost]; omega
          | add k f v => cases et : s.table k <;> simp [step, epc, et, State.ret, upd, cost] <;> omega
          | lock r => cases r <;> simp [step, epc, State.put, State.ret, upd, cost] <;> omega
          | invoke k f =>
            cases f with
            | none => simp [step, epc, State.ret, upd, cost]; omega
            | some f => cases es : s.static k f <;> simp [step, epc, es, State.ret, upd, cost] <;> omega
        · have ht : ((step s j).getD s).threads i = s.threads i := by
            have e' : i ≠ j := Ne.symm e
            simp only [step]
            repeat' split
            all_goals simp [State.put, State.ret, upd, e']
          rw [ht]
          simp [e]
      simp only [moves]
      omega
  have := key is (init programs)
  simpa [init, cost] using this

/- two threads compete with different lambdas, a third converts and unregisters: all kinds of answers occur -/
private def progEx (i : Nat) : List Req :=
  if i = 0 then [.register 0 0 7, .has 0] else if i = 1 then [.register 0 1 8] else if i = 2 then [.convert 0, .unregister 0, .convert 0] else []
example : ((run (init progEx) [0, 1, 0, 1, 0, 1, 1, 0, 2, 2, 2, 2, 2, 0, 0, 2, 2, 2]).log.map fun e => (e.thread, e.ans, e.used)) =
    [(1, .flag true, some 8), (0, .flag false, some 7), (2, .ran (some 8), some 8), (2, .none, none), (0, .flag false, none),
     (2, .ran none, none)] := by decide +kernel
-- a thread waits for another one's static
example : (step (run (init fun _ => [.register 0 0 7]) [0, 0, 1]) 1).isNone ∧ (step (run (init fun _ => [.register 0 0 7]) [0, 0, 1]) 0).isSome := by
  decide +kernel
example : ∀ i j k f v w, Req.register k f v ∈ progEx i → Req.register k f w ∈ progEx j → v = w := by
  have h : ∀ i, progEx i = [.register 0 0 7, .has 0] ∨ progEx i = [.register 0 1 8] ∨
      progEx i = [.convert 0, .unregister 0, .convert 0] ∨ progEx i = [] := by
    intro i; unfold progEx; repeat' split
    all_goals simp
  intro i j k f v w h1 h2
  rcases h i with e | e | e | e <;> rcases h j with e' | e' | e' | e' <;> simp [e, e'] at h1 h2 <;> omega

end Rtti.Props
