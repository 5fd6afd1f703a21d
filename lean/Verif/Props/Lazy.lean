import Verif.Lemmas.LazyAttrs
/-! C32, C34, C35, C58: lazy definitions in one thread.

`run fuel cs s` runs a program of API calls, look-ups and installations; callbacks are such programs. All
statements are for the state after any program `cs` run from the start. -/
set_option autoImplicit false
namespace Rtti.Props
open Rtti.Lazy Rtti.Spec

/-- the state after a program -/
abbrev after (fuel : Nat) (cs : List Cmd) : LW := (run fuel cs init).1

/-! ### C35: at most one pending definition, each run at most once, in installation order -/

/-- Definitions run in the order they were installed, each at most once, each that started has ended, and at
    most the last one has not run yet. -/
theorem C35_in_order_at_most_once (fuel : Nat) (cs : List Cmd) (p : Nat) :
    startedFor p (after fuel cs).log <+: installedFor p (after fuel cs).log ∧
    (installedFor p (after fuel cs).log).length ≤ (startedFor p (after fuel cs).log).length + 1 ∧
    finishedFor p (after fuel cs).log = (startedFor p (after fuel cs).log).length := by
  obtain ⟨h1, h2⟩ := (top_init.run fuel cs).account p
  refine ⟨by rw [h1]; exact List.prefix_append _ _, ?_, h2⟩
  rw [h1, List.length_append]
  cases (after fuel cs).pending p <;> simp

/-- Installing while one is pending throws `definition_error` and changes nothing. -/
theorem C35_second_install_throws (fuel fuel' : Nat) (cs : List Cmd) (p : Nat) (b : List Cmd)
    (hc : (after fuel cs).w.isContainer p = true)
    (h : startedFor p (after fuel cs).log ≠ installedFor p (after fuel cs).log) :
    run fuel' [.install p b] (after fuel cs) = (after fuel cs, .throw .definitionError) := by
  obtain ⟨h1, _⟩ := (top_init.run fuel cs).account p
  cases e : (after fuel cs).pending p with
  | none => rw [e] at h1; simp at h1; exact absurd h1.symm h
  | some b' =>
    rw [run_cons, exec]
    simp only [LM.bind, install, hc, Bool.not_true, Bool.false_eq_true, if_false, e]

/-- When all earlier ones have run, another can be installed; it becomes the pending one. -/
theorem C35_install_again (fuel fuel' : Nat) (cs : List Cmd) (p : Nat) (b : List Cmd)
    (hc : (after fuel cs).w.isContainer p = true)
    (h : startedFor p (after fuel cs).log = installedFor p (after fuel cs).log) :
    (run fuel' [.install p b] (after fuel cs)).2 = .val [.unit] ∧
    (run fuel' [.install p b] (after fuel cs)).1.log = (after fuel cs).log ++ [.installed p b] ∧
    (run fuel' [.install p b] (after fuel cs)).1.w = (after fuel cs).w := by
  obtain ⟨h1, _⟩ := (top_init.run fuel cs).account p
  cases e : (after fuel cs).pending p with
  | some b' => rw [e, h] at h1; simp at h1
  | none =>
    have : install p b (after fuel cs) = ({ after fuel cs with
        pending := upd (after fuel cs).pending p (some b), log := (after fuel cs).log ++ [.installed p b] }, .val ()) := by
      simp only [install, hc, Bool.not_true, Bool.false_eq_true, if_false, e]
    rw [run_cons, exec]
    simp only [LM.bind, this, LM.pure, run, execs]
    exact ⟨trivial, trivial, trivial⟩

-- two installations on the global namespace: the second is refused; after a query a third is accepted
example : (run 5 [.install 1 [], .install 1 []] init).2 = .throw .definitionError := rfl
example : (run 5 [.install 1 [], .query (.count 1 .enum), .install 1 []] init).2 = .val [.unit, .num 0, .unit] := rfl
example : (startedFor 1 (after 5 [.install 1 [.raise], .attempt [.query (.count 1 .enum)], .install 1 []]).log).length = 1 ∧
    (installedFor 1 (after 5 [.install 1 [.raise], .attempt [.query (.count 1 .enum)], .install 1 []]).log).length = 2 := ⟨rfl, rfl⟩

/-! ### C32: a definition runs once, at the first query, and is transparent -/

/-- Once `c` was asked about anything, everything installed for it before has run (and by
    `C35_in_order_at_most_once` only once). -/
theorem C32_runs_at_first_query (fuel n : Nat) (cs : List Cmd) (c : Nat) {k : Cat} (hk : k = .cls ∨ k = .nmspace)
    (hs : (after fuel cs).w.kind c = some k) (q : Query) (ha : Asks c k q) :
    installedFor c (after fuel cs).log <+: startedFor c (run (n + 1) [.query q] (after fuel cs)).1.log := by
  have hT := top_init.run fuel cs
  obtain ⟨f, hf⟩ := query_shape (check (n + 1)) n c hk q ha
  have hg : Grows (check (n + 1) c (after fuel cs)).1 (run (n + 1) [.query q] (after fuel cs)).1 := by
    have hx := hf (after fuel cs) hs
    have hqs : ∀ s, Grows s (query (check (n + 1)) (n + 1) q s).1 := (io Grows grows_look).query (grows_check (n + 1)) (.inl rfl) q
    have h2 := query_check (fuel := n) hk ha hs hT.kinds (hT.calm c)
    rw [run_cons, exec]
    simp only [LM.bind, run, execs, LM.pure, h2]
    cases e : check (n + 1) c (after fuel cs) with
    | mk s' r =>
      cases r with
      | val u =>
        dsimp only
        have := hqs s'
        cases e' : query (check (n + 1)) (n + 1) q s' with
        | mk s2 r2 => rw [e'] at this; cases r2 <;> exact this
      | throw _ => exact grows_look.refl _
      | ub => exact grows_look.refl _
      | diverge => exact grows_look.refl _
  have hd : (check (n + 1) c (after fuel cs)).1.pending c = none := check_done (hT.calm c)
  have hk' := keeps_check (n + 1) c (after fuel cs)
  have hacc := ((hk'.alive hT.alive) c).account.1
  rw [hd] at hacc
  have hacc : installedFor c (check (n + 1) c (after fuel cs)).1.log = startedFor c (check (n + 1) c (after fuel cs)).1.log := by
    rw [hacc]; unfold lastUnrun; split <;> simp
  have h1 := installedFor_prefix (p := c) (grows_check (n + 1) c (after fuel cs))
  rw [hacc] at h1
  exact h1.trans (startedFor_prefix hg)

/-- Installing, setting attributes, adding base classes and registering types run nothing. -/
theorem C32_not_before (n : Nat) (s : LW) (cs : List Cmd) (p : Nat)
    (h : ∀ x ∈ cs, (∃ q b, x = .install q b) ∨ (∃ q m v, x = .setAttr q m v) ∨ (∃ q t f, x = .op (.addBase q t f)) ∨ ∃ t, x = .op (.registerType t)) :
    startedFor p (run n cs s).1.log = startedFor p s.log := by
  induction cs generalizing s with
  | nil => rfl
  | cons x cs ih =>
    rw [run_cons]
    have hx : startedFor p (exec (check n) n x s).1.log = startedFor p s.log := by
      have hpure : ∀ {A B : Type} (m : LM A) (g : A → B), (m.bind fun a => LM.pure (g a)) s = ((m s).1, (m.bind fun a => LM.pure (g a)) s |>.2) := by
        intro A B m g
        unfold LM.bind
        cases e : m s with
        | mk s' r => cases r <;> rfl
      rcases h x (List.mem_cons_self) with ⟨q, b, rfl⟩ | ⟨q, m, v, rfl⟩ | ⟨q, t, f, rfl⟩ | ⟨t, rfl⟩
      · rw [exec, hpure (install q b) (fun _ => Ans.unit)]
        unfold install
        split
        · rfl
        · split
          · rfl
          · rw [startedFor_append]; simp [startedFor]
      · rw [exec, hpure (setAttr q m v) (fun _ => Ans.unit)]
        unfold setAttr
        split <;> rfl
      · rw [exec, hpure (Lazy.op (check n) n (.addBase q t f)) Ans.ptr]
        unfold Lazy.op
        dsimp only
        split <;> rfl
      · rw [exec, hpure (Lazy.op (check n) n (.registerType t)) Ans.ptr]
        rfl
    have hp : ∀ s', startedFor p (((run n cs).bind fun as => LM.pure (as : List Ans)) s').1.log = startedFor p s'.log := by
      intro s'
      have := ih s' (fun y hy => h y (List.mem_cons_of_mem _ hy))
      unfold LM.bind
      cases e : run n cs s' with
      | mk s2 r => rw [e] at this; cases r <;> exact this
    unfold LM.bind
    cases e : exec (check n) n x s with
    | mk s' r =>
      rw [e] at hx
      cases r with
      | val a =>
        have := ih s' (fun y hy => h y (List.mem_cons_of_mem _ hy))
        dsimp only
        cases e' : run n cs s' with
        | mk s2 r2 => rw [e'] at this; cases r2 <;> exact this.trans hx
      | throw _ => exact hx
      | ub => exact hx
      | diverge => exact hx

/-- Transparency. Let `body` be pending for `c` after any history, and ask about `c`: the answer to that query and
    everything done afterwards (any program `rest`) is as if the definitions of `body` had been made directly
    right before that query. The states agree in everything but the ghost record.
    (Neither `body` nor another pending definition installs a lazy definition on `c`.) -/
theorem C32_transparent_partial (fuel n : Nat) (cs : List Cmd) (c : Nat) {k : Cat} (hk : k = .cls ∨ k = .nmspace)
    (hs : (after fuel cs).w.kind c = some k) (body : List Cmd) (hp : (after fuel cs).pending c = some body)
    (hb : NoInstalls c body) (hq : ∀ p b, p ≠ c → (after fuel cs).pending p = some b → NoInstalls c b)
    (q : Query) (ha : Asks c k q) (rest : List Cmd) (t : LW) (a : List Ans)
    (heager : run n body { after fuel cs with pending := upd (after fuel cs).pending c none } = (t, .val a)) :
    (run (n + 1) (.query q :: rest) (after fuel cs)).2 = (run (n + 1) (.query q :: rest) t).2 ∧
    SameBut (run (n + 1) (.query q :: rest) (after fuel cs)).1 (run (n + 1) (.query q :: rest) t).1 := by
  have := (lazy_query (top_init.run fuel cs) hp hk hs ha hb hq rest t _ heager).1 a rfl
  exact ⟨this.2, this.1⟩

/-- The same for a definition installed right before the query: lazy and eager definition are the same. -/
theorem C32_install_then_query_partial (fuel n : Nat) (cs : List Cmd) (c : Nat) {k : Cat} (hk : k = .cls ∨ k = .nmspace)
    (hs : (after fuel cs).w.kind c = some k) (body : List Cmd) (hnone : (after fuel cs).pending c = none)
    (hb : NoInstalls c body) (hq : ∀ p b, p ≠ c → (after fuel cs).pending p = some b → NoInstalls c b)
    (q : Query) (ha : Asks c k q) (rest : List Cmd) (t : LW) (a : List Ans)
    (heager : run n body (after fuel cs) = (t, .val a)) :
    ∃ s, run (n + 1) [.install c body] (after fuel cs) = (s, .val [.unit]) ∧
      (run (n + 1) (.query q :: rest) s).2 = (run (n + 1) (.query q :: rest) t).2 ∧
      SameBut (run (n + 1) (.query q :: rest) s).1 (run (n + 1) (.query q :: rest) t).1 := by
  have hT := top_init.run fuel cs
  have hcont : (after fuel cs).w.isContainer c = true := by
    rw [World.isContainer_iff, hs]; rcases hk with rfl | rfl <;> simp
  refine ⟨{ after fuel cs with pending := upd (after fuel cs).pending c (some body), log := (after fuel cs).log ++ [.installed c body] }, ?_, ?_⟩
  · rw [run_cons, exec]
    simp only [LM.bind, install, hcont, Bool.not_true, Bool.false_eq_true, if_false, hnone, LM.pure, run, execs]
  · generalize hs' : ({ after fuel cs with pending := upd (after fuel cs).pending c (some body), log := (after fuel cs).log ++ [.installed c body] } : LW) = s'
    have hrun : (run (n + 1) [.install c body] (after fuel cs)).1 = s' := by
      rw [run_cons, exec]
      simp only [LM.bind, install, hcont, Bool.not_true, Bool.false_eq_true, if_false, hnone, LM.pure, run, execs]
      exact hs'
    have hT' : Top s' := by rw [← hrun]; exact hT.run _ _
    have hsame : SameBut { s' with pending := upd s'.pending c none } (after fuel cs) := by
      subst hs'
      refine ⟨rfl, rfl, ?_, rfl, rfl⟩
      funext p
      dsimp only [upd]
      split
      · rename_i e; rw [e]; exact hnone.symm
      · rfl
    have hsim := same_run n body hsame
    rw [heager] at hsim
    cases e : run n body { s' with pending := upd s'.pending c none } with
    | mk t' r' =>
      rw [e] at hsim
      obtain ⟨hst, hr⟩ := hsim
      dsimp only at hst hr
      subst hr
      have := (lazy_query (c := c) (body := body) hT' (by subst hs'; simp [upd]) hk (by subst hs'; exact hs) ha hb
        (fun p b hpc hb' => hq p b hpc (by subst hs'; simpa [upd, hpc] using hb')) rest t' _ e).1 a rfl
      have h2 := same_run (n + 1) (.query q :: rest) hst
      exact ⟨this.2.trans h2.2, Lazy.SameBut.trans this.1 h2.1⟩

/-- Queries from inside the callback do not run it again: whatever `c`'s callback does, while it runs a check of
    `c` changes nothing. -/
theorem C32_reentrant (n : Nat) (s : LW) (c : Nat) (h : s.running c = true) : check (n + 1) c s = (s, .val ()) :=
  check_idle (.inr h)

-- a callback that asks about its own container while defining; the first query runs it and sees both enums
example :
    (run 6 [.install 1 [.op (.createEnum 1 ['A']), .query (.count 1 .enum), .op (.createEnum 1 ['B'])],
      .query (.count 1 .enum), .query (.count 1 .enum)] init).2 = .val [.unit, .num 2, .num 2] := by decide
example : (startedFor 1 (after 6 [.install 1 [.op (.createEnum 1 ['A']), .query (.count 1 .enum)],
      .query (.count 1 .enum), .query (.count 1 .enum)]).log).length = 1 := by decide
example : NoInstalls 1 [.op (.createEnum 1 ['A']), .query (.count 1 .enum), .op (.createEnum 1 ['B'])] := by simp [NoInstalls, NoInstall]

/-- C32 is false of the code for attributes set between the installation and the first query: setting an
    attribute does not run the callback, so the callback overwrites it. Eager: 2, lazy: 1. -/
theorem C32_attributes_false :
    (run 6 [.install 1 [.setAttr 1 ['x'] 1], .setAttr 1 ['x'] 2, .query (.attr 1 ['x'])] init).2
      = .val [.unit, .unit, .attr (some 1)] ∧
    (run 6 [.setAttr 1 ['x'] 1, .setAttr 1 ['x'] 2, .query (.attr 1 ['x'])] init).2
      = .val [.unit, .unit, .attr (some 2)] := by decide

/-- A callback that installs a lazy definition on its own container fails, where direct definition succeeds. -/
theorem C32_self_install_false :
    (run 6 [.install 1 [.install 1 []], .query (.count 1 .enum)] init).2 = .throw .definitionError ∧
    (run 6 [.install 1 [], .query (.count 1 .enum)] init).2 = .val [.unit, .num 0] := ⟨rfl, rfl⟩

/-- a program of one command -/
theorem run_one (fuel : Nat) (c : Cmd) (s : LW) : run fuel [c] s = ((exec (check fuel) fuel c s).1, match (exec (check fuel) fuel c s).2 with
    | .val a => .val [a]
    | .throw e => .throw e
    | .ub => .ub
    | .diverge => .diverge) := by
  rw [run_cons]
  unfold LM.bind
  generalize exec (check fuel) fuel c s = r
  obtain ⟨s', r⟩ := r
  cases r <;> rfl

/-- When nothing is pending, every query is answered as by the functions without lazy definitions, and changes nothing. -/
theorem C32_plain_query (fuel n : Nat) (cs : List Cmd) (hq : ∀ p, (after fuel cs).pending p = none) (hn : (after fuel cs).w.depth ≤ n + 1)
    (q : Query) (hd : answer (after fuel cs) q ≠ .diverge) :
    (run (n + 1) [.query q] (after fuel cs)).1 = after fuel cs ∧
    (run (n + 1) [.query q] (after fuel cs)).2 = (match answer (after fuel cs) q with
      | .val a => .val [a]
      | .throw e => .throw e
      | .ub => .ub
      | .diverge => .diverge) := by
  have hat := attrs_run fuel cs
  revert hq hn hd hat
  show ∀ (hq : Quiet (after fuel cs)) (hn : (after fuel cs).w.depth ≤ n + 1) (hd : answer (after fuel cs) q ≠ .diverge) (hat : Attrs (after fuel cs)), _
  generalize after fuel cs = s
  intro hq hn hd hat
  suffices h : query (check (n + 1)) (n + 1) q s = (s, answer s q) by
    rw [run_one, exec, h]
    exact ⟨rfl, rfl⟩
  have chk : ∀ {A : Type} (c : Ptr) (k : LM A), (LM.bind (check (n + 1) c) fun _ => k) s = k s := by
    intro A c k
    simp only [LM.bind, check_quiet hq]
  have bindS : ∀ {A B : Type} (m : LM A) (r : Res A) (f : A → B), m s = (s, r) → (m.bind fun a => LM.pure (f a)) s = (s, match r with
      | .val a => .val (f a) | .throw e => .throw e | .ub => .ub | .diverge => .diverge) := by
    intro A B m r f e
    simp only [LM.bind, e]
    cases r <;> rfl
  have anyM : ∀ {A : Type} {f : A → Ans} {r : Res A}, answer.ansOf f r ≠ .diverge → r ≠ .diverge := by
    rintro A f r h rfl; exact h rfl
  have whenM : ∀ {A : Type} (p : World → Bool) (k : LM A), (LM.bind (onlyIf p) fun _ => k) s = if p s.w = true then k s else (s, .ub) := by
    intro A p k
    simp only [LM.bind, onlyIf, LM.read]
    by_cases h : p s.w = true <;> simp [h]
  cases q with
  | item c k nm =>
    simp only [query, answer]
    rw [bindS _ _ _ (reads_getItem c k nm s hq)]
    dsimp only
    cases s.w.getItem c k nm <;> rfl
  | itemAt c k i =>
    simp only [query, answer]
    rw [chk, whenM]
    split
    · simp only [LM.read, ItemList.getAt]
      by_cases h : i < (s.w.cont c k).items.length <;> simp [h]
    · rfl
  | count c k =>
    simp only [query, answer]
    rw [chk, whenM]
    split <;> rfl
  | constructor c nm =>
    simp only [query, answer]
    rw [bindS _ _ _ (reads_getConstructor c nm s hq)]
    dsimp only
    cases s.w.getConstructor c nm <;> rfl
  | method c nm =>
    simp only [query, answer] at hd ⊢
    rw [bindS _ _ _ (getMethod_quiet hq hn c nm (anyM hd))]
    cases s.w.getMethod c nm <;> rfl
  | property c nm =>
    simp only [query, answer] at hd ⊢
    rw [bindS _ _ _ (getProperty_quiet hq hn c nm (anyM hd))]
    cases s.w.getProperty c nm <;> rfl
  | attr c nm =>
    simp only [query, answer]
    refine (chk c (fun s => (s, .val (Ans.attr (attrOf (s.attrs c) nm))) : LM Ans)).trans ?_
    obtain ⟨h, r⟩ := hat c
    simp only [attrOf_find r]
  | baseCount c =>
    simp only [query, answer]
    rw [chk, whenM]
    simp only [decide_eq_true_eq]
    split <;> rfl
  | derivedCount c =>
    simp only [query, answer]
    rw [chk, whenM]
    simp only [decide_eq_true_eq]
    split <;> rfl
  | inherited c b =>
    simp only [query, answer] at hd ⊢
    rw [whenM]
    simp only [decide_eq_true_eq]
    split
    · rename_i hk
      rw [if_pos hk] at hd
      have hd := anyM hd
      rw [bindS _ _ _ (reads_inheritedFrom (n + 1) c b s hq)]
      dsimp only
      rw [inheritedFromF_mono _ _ hn c hd]
      change (s, _) = (s, answer.ansOf Ans.bool (s.w.inheritedFromF s.w.depth c b))
      cases s.w.inheritedFromF s.w.depth c b <;> rfl
    · rfl
  | cast c b a =>
    simp only [query, answer] at hd ⊢
    rw [whenM]
    simp only [decide_eq_true_eq]
    split
    · rename_i hk
      rw [if_pos hk] at hd
      have hd := anyM hd
      rw [bindS _ _ _ (reads_cast (n + 1) c b a s hq)]
      dsimp only
      rw [castF_mono _ _ hn c a hd]
      change (s, _) = (s, answer.ansOf Ans.num (s.w.castF s.w.depth c b a))
      cases s.w.castF s.w.depth c b a <;> rfl
    · rfl

/-- When nothing is pending, every definition does what it does without lazy definitions. -/
theorem C32_plain_op (fuel n : Nat) (cs : List Cmd) (hq : ∀ p, (after fuel cs).pending p = none) (hn : (after fuel cs).w.depth ≤ n) (o : World.Op)
    (hd : ((after fuel cs).w.step o).2 ≠ .diverge) :
    (run (n + 1) [.op o] (after fuel cs)).1 = { after fuel cs with w := ((after fuel cs).w.step o).1 } ∧
    (run (n + 1) [.op o] (after fuel cs)).2 = (match ((after fuel cs).w.step o).2 with
      | .val a => .val [.ptr a]
      | .throw e => .throw e
      | .ub => .ub
      | .diverge => .diverge) := by
  have h := op_quiet (f := n) (fuel := n + 1) hq (top_init.run fuel cs).iter (by omega) o hd
  rw [run_one, exec]
  simp only [LM.bind, h]
  cases ((after fuel cs).w.step o).2 <;> exact ⟨rfl, rfl⟩

/-- two classes, one the base of the other, and an attribute; a definition that has run -/
def plainProgram : List Cmd := [.op (.registerType 1), .op (.registerType 2), .op (.createClass 1 ['A'] 1), .op (.createClass 1 ['B'] 2),
  .op (.addBase 3 1 (· + 4)), .setAttr 3 ['x'] 7, .install 2 [.op (.createMethod 2 ['f', '(', ')'] true)], .query (.count 2 .method)]
example : (∀ p < 5, (after 9 plainProgram).pending p = none) ∧ (after 9 plainProgram).w.depth ≤ 8 ∧
    (run 9 [.query (.baseCount 3), .query (.method 3 ['f']), .query (.attr 3 ['x']), .query (.inherited 3 (some 2)), .query (.cast 3 (some 2) 10),
      .query (.derivedCount 2), .query (.itemAt 1 .cls 1)] (after 9 plainProgram)).2 =
        .val [.num 1, .ptr (some 4), .attr (some 7), .bool true, .num 14, .num 1, .ptr (some 3)] := by decide +kernel

/-! ### C34: a failing definition does not wedge the container -/

/-- The exception reaches the caller of the query; what was defined before the throw stays; afterwards everything
    (any program) behaves as if those definitions had been made directly; nothing is marked as in progress, the
    definition is no longer pending. -/
theorem C34_failure (fuel n : Nat) (cs : List Cmd) (c : Nat) {k : Cat} (hk : k = .cls ∨ k = .nmspace)
    (hs : (after fuel cs).w.kind c = some k) (body : List Cmd) (hp : (after fuel cs).pending c = some body)
    (hb : NoInstalls c body) (hq : ∀ p b, p ≠ c → (after fuel cs).pending p = some b → NoInstalls c b)
    (q : Query) (ha : Asks c k q) (rest : List Cmd) (t : LW) (e : Err)
    (heager : run n body { after fuel cs with pending := upd (after fuel cs).pending c none } = (t, .throw e)) :
    ∃ s', run (n + 1) (.query q :: rest) (after fuel cs) = (s', .throw e) ∧
      (∀ p, s'.running p = false) ∧ SameBut s' t ∧ s'.pending c = none ∧
      (∀ m later, (run m later s').2 = (run m later t).2 ∧ SameBut (run m later s').1 (run m later t).1) := by
  have hT := top_init.run fuel cs
  obtain ⟨h1, h2⟩ := (lazy_query hT hp hk hs ha hb hq rest t _ heager).2 e rfl
  have hT' := hT.run (n + 1) (.query q :: rest)
  refine ⟨(run (n + 1) (.query q :: rest) (after fuel cs)).1, Prod.ext rfl h2, hT'.calm, h1, ?_, fun m later => ?_⟩
  · have hce := (check_eager (fuel := n) hp (hT.calm c) hb hq).1
    rw [heager] at hce
    have hd : (check (n + 1) c (after fuel cs)).1.pending c = none := check_done (hT.calm c)
    rw [h1.2.2.1, ← hce.2.2.1]; exact hd
  · have := same_run m later h1
    exact ⟨this.2, this.1⟩

/-- Without conditions on the callbacks (they may install definitions, also for the same container): when the callback,
    run while its container is marked in progress, throws after bringing the program into some state `t`, the query
    throws that very exception, and what is left is `t` with nothing pending for the container and no mark. -/
theorem C34_any_callback (fuel n : Nat) (cs : List Cmd) (c : Nat) {k : Cat} (hk : k = .cls ∨ k = .nmspace)
    (hs : (after fuel cs).w.kind c = some k) (body : List Cmd) (hp : (after fuel cs).pending c = some body)
    (q : Query) (ha : Asks c k q) (rest : List Cmd) (t : LW) (e : Err)
    (hbody : run n body { after fuel cs with running := upd (after fuel cs).running c true,
                                             log := (after fuel cs).log ++ [.started c body] } = (t, .throw e)) :
    ∃ s', run (n + 1) (.query q :: rest) (after fuel cs) = (s', .throw e) ∧
      s'.w = t.w ∧ s'.attrs = t.attrs ∧ (∀ p, p ≠ c → s'.pending p = t.pending p) ∧ s'.pending c = none ∧
      (∀ p, s'.running p = false) := by
  have hT := top_init.run fuel cs
  have hT' := hT.run (n + 1) (.query q :: rest)
  have hr := hT.calm c
  have h2 := query_check (fuel := n) hk ha hs hT.kinds hr
  unfold run at hbody
  have h3 : check (n + 1) c (after fuel cs) =
      ({ t with pending := upd t.pending c none, running := upd t.running c false,
                log := t.log ++ [.finished c] }, .throw e) := by
    simp only [check, hp, hr, Bool.false_eq_true, if_false, hbody, outcome]
  rw [h3] at h2
  have h4 : run (n + 1) (.query q :: rest) (after fuel cs) =
      ({ t with pending := upd t.pending c none, running := upd t.running c false,
                log := t.log ++ [.finished c] }, .throw e) := by
    rw [run_cons]
    unfold LM.bind exec
    rw [h2]
  rw [h4] at hT'
  exact ⟨_, h4, rfl, rfl, fun p hpc => upd_ne _ _ hpc, upd_same _ _ _, hT'.calm⟩

/-- a callback that defines a namespace and then installs another definition for its own container -/
example : (after 9 [.install 1 [.op (.createNamespace 1 ['a']), .install 1 []]]).pending 1 = some [.op (.createNamespace 1 ['a']), .install 1 []] ∧
    (run 9 [.query (.count 1 .nmspace)] (after 9 [.install 1 [.op (.createNamespace 1 ['a']), .install 1 []]])).2 = .throw .definitionError ∧
    (run 9 [.query (.count 1 .nmspace), .query (.count 1 .nmspace)]
      (run 9 [.query (.count 1 .nmspace)] (after 9 [.install 1 [.op (.createNamespace 1 ['a']), .install 1 []]])).1).2 =
        .val [.num 1, .num 1] := ⟨rfl, rfl, rfl⟩

/-- Without conditions on the callbacks: if a query throws, nothing is left marked in progress, so by C35 a new
    definition can be installed as soon as the pending one was used, and each is run at most once. -/
theorem C34_no_mark_left (fuel : Nat) (cs : List Cmd) (p : Nat) : (after fuel cs).running p = false :=
  (top_init.run fuel cs).calm p

/-- A program that catches the exception goes on where it was thrown: the commands that follow run in the state the throw left,
    and answer as they would there. -/
theorem C34_caught (fuel : Nat) (body more : List Cmd) (s t : LW) (e : Err) (h : run fuel body s = (t, .throw e)) :
    (run fuel (.attempt body :: more) s).1 = (run fuel more t).1 ∧
    (∀ as, (run fuel (.attempt body :: more) s).2 = .val (.unit :: as) ↔ (run fuel more t).2 = .val as) ∧
    (∀ e', (run fuel (.attempt body :: more) s).2 = .throw e' ↔ (run fuel more t).2 = .throw e') ∧
    ((run fuel (.attempt body :: more) s).2 = .ub ↔ (run fuel more t).2 = .ub) := by
  have e1 : run fuel (.attempt body :: more) s = ((run fuel more t).1,
      match (run fuel more t).2 with
      | .val as => .val (.unit :: as)
      | .throw e => .throw e
      | .ub => .ub
      | .diverge => .diverge) := by
    unfold run at h ⊢
    simp only [execs, exec, LM.bind, catchAll, h, LM.pure]
    generalize execs (check fuel) fuel more t = r
    obtain ⟨r1, r2⟩ := r
    cases r2 <;> rfl
  rw [e1]
  cases (run fuel more t).2 <;> simp

example : (run 5 [.attempt [.raise], .install 1 [], .query (.count 1 .enum)] init).2 = .val [.unit, .unit, .num 0] := rfl

/-- Only exceptions can be caught: undefined behaviour and recursion without end inside `try` are not made up for by `catch (...)`;
    nor is a `try` block noticed in which nothing is thrown. -/
theorem C34_only_exceptions (fuel : Nat) (body more : List Cmd) (s t : LW) :
    (run fuel body s = (t, .ub) → run fuel (.attempt body :: more) s = (t, .ub)) ∧
    (run fuel body s = (t, .diverge) → run fuel (.attempt body :: more) s = (t, .diverge)) ∧
    (∀ as, run fuel body s = (t, .val as) → (run fuel (.attempt body :: more) s).1 = (run fuel more t).1 ∧
      ∀ bs, (run fuel (.attempt body :: more) s).2 = .val (.unit :: bs) ↔ (run fuel more t).2 = .val bs) := by
  refine ⟨fun h => ?_, fun h => ?_, fun as h => ?_⟩
  · unfold run at h ⊢
    simp only [execs, exec, LM.bind, catchAll, h]
  · unfold run at h ⊢
    simp only [execs, exec, LM.bind, catchAll, h]
  · unfold run at h ⊢
    simp only [execs, exec, LM.bind, catchAll, h, LM.pure]
    generalize execs (check fuel) fuel more t = r
    obtain ⟨r1, r2⟩ := r
    cases r2 <;> simp

-- a look-up in an object that is no container
example : (run 5 [.query (.count 9 .enum)] init).2 = .ub ∧ (run 5 [.attempt [.query (.count 9 .enum)], .raise] init).2 = .ub ∧
    (run 5 [.attempt [.query (.count 1 .enum)], .query (.count 1 .enum)] init).2 = .val [.unit, .num 0] := ⟨rfl, rfl, rfl⟩

/-- After the failure a new definition is accepted and later run, the failed one is not run again. -/
theorem C34_install_again (fuel n : Nat) (cs : List Cmd) (c : Nat) {k : Cat} (hk : k = .cls ∨ k = .nmspace)
    (hs : (after fuel cs).w.kind c = some k) (body : List Cmd) (hp : (after fuel cs).pending c = some body)
    (hb : NoInstalls c body) (hq : ∀ p b, p ≠ c → (after fuel cs).pending p = some b → NoInstalls c b)
    (q : Query) (ha : Asks c k q) (t : LW) (e : Err)
    (heager : run n body { after fuel cs with pending := upd (after fuel cs).pending c none } = (t, .throw e)) (new : List Cmd) :
    let s' := (run (n + 1) [.query q] (after fuel cs)).1
    startedFor c s'.log = installedFor c s'.log ∧ body ∈ startedFor c s'.log ∧
    (run (n + 1) [.install c new] s').2 = .val [.unit] ∧
    installedFor c (run (n + 1) [.install c new] s').1.log = installedFor c s'.log ++ [new] ∧
    startedFor c (run (n + 1) [.install c new] s').1.log = startedFor c s'.log := by
  intro s'
  have hT := top_init.run fuel cs
  have hown := (check_eager (fuel := n) hp (hT.calm c) hb hq).2
  rw [heager] at hown
  have hs' : s' = (check (n + 1) c (after fuel cs)).1 := by
    have h2 := query_check (fuel := n) hk ha hs hT.kinds (hT.calm c)
    show (run (n + 1) [.query q] (after fuel cs)).1 = _
    rw [run_cons, exec]
    simp only [LM.bind, h2]
    cases ec : check (n + 1) c (after fuel cs) with
    | mk s1 r1 => rw [ec] at hown; cases hown; rfl
  have hd : s'.pending c = none := by rw [hs']; exact check_done (hT.calm c)
  have hT' : Top s' := hT.run (n + 1) [.query q]
  obtain ⟨h1, _⟩ := hT'.account c
  rw [hd] at h1
  have hkind : s'.w.kind c = some k := (kinds_run (n + 1) [.query q] (after fuel cs) hT.kinds).2 c k hs
  have hcont : s'.w.isContainer c = true := by
    rw [World.isContainer_iff, hkind]; rcases hk with rfl | rfl <;> simp
  have : install c new s' = ({ s' with pending := upd s'.pending c (some new), log := s'.log ++ [.installed c new] }, .val ()) := by
    simp only [install, hcont, Bool.not_true, Bool.false_eq_true, if_false, hd]
  have h1 : startedFor c s'.log = installedFor c s'.log := by simpa using h1.symm
  refine ⟨h1, ?_, ?_⟩
  · rw [h1]
    refine (installedFor_prefix ?_).subset ((hT.alive c).pending_mem hp)
    rw [hs']; exact grows_check _ _ _
  rw [run_cons, exec]
  simp only [LM.bind, this, LM.pure, run, execs]
  refine ⟨trivial, ?_, ?_⟩
  · rw [installedFor_append]; simp [installedFor]
  · rw [startedFor_append]; simp [startedFor]

-- the callback defines one enum and throws; the query throws, later queries see the enum, a new definition works
example :
    (run 6 [.install 1 [.op (.createEnum 1 ['A']), .raise], .query (.count 1 .enum)] init).2 = .throw .userError ∧
    (run 6 [.install 1 [.op (.createEnum 1 ['A']), .raise], .attempt [.query (.count 1 .enum)], .query (.count 1 .enum),
      .install 1 [.op (.createEnum 1 ['B'])], .query (.count 1 .enum)] init).2
      = .val [.unit, .unit, .num 1, .unit, .num 2] := by decide

/-! ### C58: members of bases whose definition is still pending -/

theorem ready_after (fuel : Nat) (cs : List Cmd) (hloc : ∀ p b, b ∈ installedFor p (after fuel cs).log → Locals p b) : Ready (after fuel cs) := by
  have hT := top_init.run fuel cs
  exact ⟨⟨hT.kinds, hT.lists.1, hT.lists.2, hT.alive, fun p b e => hloc p b ((hT.alive p).pending_mem e)⟩, hT.calm⟩

/-- Looking up a method in a class, whatever definitions are pending in it and its bases (each defining only into
    its own class): a method found is the one a depth-first search of the final hierarchy finds; if none is found,
    every ancestor's definition has run and none has a matching method. -/
theorem C58_method_partial (fuel n : Nat) (cs : List Cmd) (hloc : ∀ p b, b ∈ installedFor p (after fuel cs).log → Locals p b)
    (c : Nat) (hc : (after fuel cs).w.kind c = some .cls) (name : Str) (hn : name ≠ []) (s' : LW) (r : Option Nat)
    (h : run (n + 1) [.query (.method c name)] (after fuel cs) = (s', .val [.ptr r])) :
    (∀ m, r = some m → Finds s'.w (OwnMethod s'.w name) c m) ∧
    (r = none → ∀ a, Reaches s'.w c a → s'.pending a = none ∧ ∀ m, ¬ OwnMethod s'.w name a m) := by
  have hR := ready_after fuel cs hloc
  have hlook : classMethod (check (n + 1)) (n + 1) c name (after fuel cs) = (s', .val r) := by
    rw [run_cons, exec, query] at h
    obtain ⟨s1, a, h1, h2⟩ := bind_eq_val h
    obtain ⟨s2, o, h3, h4⟩ := bind_eq_val h1
    cases h4
    have e : getMethod (check (n + 1)) (n + 1) c name (after fuel cs) = classMethod (check (n + 1)) (n + 1) c name (after fuel cs) := by
      unfold getMethod
      rw [if_neg hn]
      simp only [LM.bind, LM.read, hc]
    rw [e] at h3
    simp only [LM.bind, run, execs, LM.pure] at h2
    cases h2
    exact h3
  have hans := lookup_answer (methodM name) n (fun k p => classMethod (check (n + 1)) k p name) (fun _ => rfl)
    (fun k p => by
      funext s
      exact congrFun (if_neg hn) s) (n + 1) c _ _ r hR (hR.wf.kinds c _ hc) hlook
  refine ⟨?_, ?_⟩
  · rintro m rfl; exact hans.2
  · rintro rfl a hra
    obtain ⟨_, h1, h2, _⟩ := hans.2 a hra
    exact ⟨h1, h2⟩

/-- The same for properties. -/
theorem C58_property_partial (fuel n : Nat) (cs : List Cmd) (hloc : ∀ p b, b ∈ installedFor p (after fuel cs).log → Locals p b)
    (c : Nat) (hc : (after fuel cs).w.kind c = some .cls) (name : Str) (hn : name ≠ []) (s' : LW) (r : Option Nat)
    (h : run (n + 1) [.query (.property c name)] (after fuel cs) = (s', .val [.ptr r])) :
    (∀ m, r = some m → Finds s'.w (OwnProperty s'.w name) c m) ∧
    (r = none → ∀ a, Reaches s'.w c a → s'.pending a = none ∧ ∀ m, ¬ OwnProperty s'.w name a m) := by
  have hR := ready_after fuel cs hloc
  have hlook : classProperty (check (n + 1)) (n + 1) c name (after fuel cs) = (s', .val r) := by
    rw [run_cons, exec, query] at h
    obtain ⟨s1, a, h1, h2⟩ := bind_eq_val h
    obtain ⟨s2, o, h3, h4⟩ := bind_eq_val h1
    cases h4
    have e : getProperty (check (n + 1)) (n + 1) c name (after fuel cs) = classProperty (check (n + 1)) (n + 1) c name (after fuel cs) := by
      unfold getProperty
      simp only [LM.bind, LM.read, hc]
    rw [e] at h3
    simp only [LM.bind, run, execs, LM.pure] at h2
    cases h2
    exact h3
  have hans := lookup_answer (propertyM name hn) n (fun k p => classProperty (check (n + 1)) k p name) (fun _ => rfl)
    (fun k p => by
      funext s
      exact congrFun (if_neg hn) s) (n + 1) c _ _ r hR (hR.wf.kinds c _ hc) hlook
  refine ⟨?_, ?_⟩
  · rintro m rfl; exact hans.2
  · rintro rfl a hra
    obtain ⟨_, h1, h2, _⟩ := hans.2 a hra
    exact ⟨h1, h2⟩

/-- class `D` (object 3) with bases `B` (2) and `C` (4), whose definitions are pending -/
def lazyBases : List Cmd :=
  [.op (.registerType 7), .op (.registerType 8), .op (.registerType 9),
   .op (.createClass 1 ['B'] 7), .op (.createClass 1 ['D'] 8), .op (.createClass 1 ['C'] 9),
   .op (.addBase 3 7 id), .op (.addBase 3 9 id),
   .install 2 [.op (.createMethod 2 ['g', '(', ')'] true)],
   .install 4 [.op (.createMethod 4 ['f', '(', ')'] true)]]

example : (run 9 (lazyBases ++ [.query (.method 3 ['f'])]) init).2 =
    .val [.ptr none, .ptr none, .ptr none, .ptr (some 2), .ptr (some 3), .ptr (some 4), .ptr none, .ptr none, .unit, .unit, .ptr (some 6)] := by decide +kernel
example : (after 9 lazyBases).w.kind 3 = some .cls := by decide +kernel

/-- With a callback that defines into another class the look-up can miss a member that is there when it returns:
    `C`'s callback adds `f` to `B`, which was already searched. -/
theorem C58_foreign_callback_false :
    (run 9 (lazyBases.take 8 ++ [.install 4 [.op (.createMethod 2 ['f', '(', ')'] true)],
      .query (.method 3 ['f']), .query (.method 3 ['f'])]) init).2 =
    .val [.ptr none, .ptr none, .ptr none, .ptr (some 2), .ptr (some 3), .ptr (some 4), .ptr none, .ptr none, .unit,
      .ptr none, .ptr (some 5)] := by decide +kernel

end Rtti.Props
