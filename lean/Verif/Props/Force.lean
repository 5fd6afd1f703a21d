import Verif.Lemmas.Force
/-
C62 (forcing lazy definitions recursively) and C63 (enumeration by user code that uses the library)
-/
set_option autoImplicit false
namespace Rtti.Props
open Lazy Spec

/-- the state after a program run from the beginning -/
abbrev afterRun (fuel : Nat) (cs : List Cmd) : LW := (run fuel cs init).1

/-! ### C62 -/

/-- After a recursive force that returns, every definition accepted for a container of the tree, or for a container
    made meanwhile, has run, once each; no definition was accepted meanwhile. For callbacks that install no further
    ones. -/
theorem C62_all_run_partial (fuel n d : Nat) (cs : List Cmd)
    (hni : ∀ p b, b ∈ installedFor p (afterRun fuel cs).log → InstallNothing b) (p : Nat)
    (hp : (afterRun fuel cs).w.isContainer p = true) (s' : LW) (h : force (n + 1) d p (afterRun fuel cs) = (s', .val ())) (q : Nat)
    (hq : Below (afterRun fuel cs).w p q ∨ (afterRun fuel cs).w.next ≤ q) :
    startedFor q s'.log = installedFor q (afterRun fuel cs).log ∧ installedFor q s'.log = installedFor q (afterRun fuel cs).log ∧
    finishedFor q s'.log = (installedFor q (afterRun fuel cs).log).length := by
  have hT := top_init.run fuel cs
  have hS := sound_run fuel cs
  have hC : Calm (afterRun fuel cs) := ⟨hT.calm, hS, fun p b e => hni p b ((hT.alive p).pending_mem e)⟩
  have hA := hC.force (n + 1) d p
  have hT' := hT.force (n + 1) d p
  rw [h] at hA hT'
  have hlt : p < (afterRun fuel cs).w.next := by
    rcases (World.isContainer_iff _ _).1 hp with h | h <;> exact hT.kinds p _ h
  have hnone : s'.pending q = none := by
    rcases hq with hq | hq
    · exact force_all hC hlt h q hq
    · refine hA.pend q ?_
      cases e : (afterRun fuel cs).pending q with
      | none => rfl
      | some b => exact absurd (hS.live q (by rw [e]; simp)) (Nat.not_lt.2 hq)
  have h1 := hT'.account q
  rw [hnone] at h1
  simp only [Option.toList_none, List.append_nil] at h1
  rw [← h1.1, hA.inst q]
  refine ⟨rfl, rfl, ?_⟩
  rw [h1.2, ← h1.1, hA.inst q]

/-- However a recursive force ends, nothing stays marked as running, no lock stays held, and every container is as
    usable as after any program: its definitions ran in order, each at most once. -/
theorem C62_not_wedged (fuel n d : Nat) (cs : List Cmd) (p q : Nat) :
    let s' := (force n d p (afterRun fuel cs)).1
    s'.running q = false ∧ s'.iter = [] ∧ startedFor q s'.log <+: installedFor q s'.log ∧
    finishedFor q s'.log = (startedFor q s'.log).length := by
  have hT := (top_init.run fuel cs).force n d p
  refine ⟨hT.calm q, hT.iter, ?_, (hT.account q).2⟩
  rw [(hT.account q).1]
  exact List.prefix_append _ _

/-- Forcing a container alone, however it ends: every definition accepted for the container, also meanwhile, has run,
    once each and in order; nothing stays marked as running. Needs no assumption about the callbacks. -/
theorem C62_self (fuel n : Nat) (cs : List Cmd) (p q : Nat) :
    let s' := (forceSelf (n + 1) p (afterRun fuel cs)).1
    installedFor p (afterRun fuel cs).log <+: startedFor p s'.log ∧ startedFor p s'.log = installedFor p s'.log ∧
    finishedFor p s'.log = (installedFor p s'.log).length ∧
    s'.running q = false ∧ s'.iter = [] ∧ startedFor q s'.log <+: installedFor q s'.log := by
  intro s'
  have hT := top_init.run fuel cs
  have hT' : Top s' := hT.check (n + 1) p
  have hn : s'.pending p = none := check_done (hT.calm p)
  have h1 := hT'.account p
  rw [hn] at h1
  simp only [Option.toList_none, List.append_nil] at h1
  refine ⟨?_, h1.1.symm, ?_, hT'.calm q, hT'.iter, ?_⟩
  · rw [← h1.1]; exact installedFor_prefix (grows_check (n + 1) p _)
  · rw [h1.2, ← h1.1]
  · rw [(hT'.account q).1]; exact List.prefix_append _ _

/-- With callbacks that define only into their own container no lock is ever waited for: the outcome is that of the
    walk without locks. -/
theorem C62_no_deadlock_partial (fuel n d : Nat) (cs : List Cmd)
    (hloc : ∀ p b, b ∈ installedFor p (afterRun fuel cs).log → Locals p b) (p : Nat)
    (hp : (afterRun fuel cs).w.isContainer p = true) :
    force (n + 1) d p (afterRun fuel cs) = walk (n + 1) d p (afterRun fuel cs) := by
  have hT := top_init.run fuel cs
  refine force_walk ⟨⟨hT.kinds, hT.lists.1, hT.lists.2, hT.alive, fun p b e => hloc p b ((hT.alive p).pending_mem e)⟩,
    sound_run fuel cs, hT.calm, Nat.zero_le _⟩ ?_
  rcases (World.isContainer_iff _ _).1 hp with h | h <;> exact hT.kinds p _ h

/-- An exception of the definition of the container itself reaches the caller before any member is visited. -/
theorem C62_exception (n d p : Nat) (s s1 : LW) (e : Err) (h : check n p s = (s1, .throw e)) :
    force n (d + 1) p s = (s1, .throw e) := by
  unfold force LM.bind
  rw [h]

/-- a namespace `N` with a class `A` that has a nested class, and a second class `B`; each has a lazy definition -/
def forest : List Cmd :=
  [.op (.registerType 5), .op (.registerType 6), .op (.registerType 7), .op (.createNamespace 1 ['N']),
   .op (.createClass 2 ['A'] 5), .op (.createClass 2 ['B'] 6), .op (.createClass 3 ['I'] 7),
   .install 2 [.op (.createEnum 2 ['e'])],
   .install 3 [.op (.createEnum 3 ['e']), .query (.count 4 .enum)],
   .install 4 [.op (.createEnum 4 ['e']), .op (.createNamespace 4 ['M'])],
   .install 5 [.op (.createEnum 5 ['e'])]]

example : (force 6 4 1 (afterRun 6 forest)).2 = .val () := by decide +kernel
example : ((force 6 4 1 (afterRun 6 forest)).1.w.cont 5 .enum).size = 1 ∧
    (startedFor 5 (force 6 4 1 (afterRun 6 forest)).1.log).length = 1 ∧
    (startedFor 5 (afterRun 6 forest).log).length = 0 ∧ (installedFor 5 (afterRun 6 forest).log).length = 1 := by decide +kernel
example : Below (afterRun 6 forest).w 1 5 :=
  .nmspace (c := 2) (n := ['N']) (by decide +kernel) (.cls (c := 3) (n := ['A']) (by decide +kernel)
    (.cls (c := 5) (n := ['I']) (by decide +kernel) (.refl 5)))
example : InstallNothing [.op (.createEnum 3 ['e']), .query (.count 4 .enum)] := by simp [InstallNothing, InstallsNothing]
example : Locals 3 [.op (.createEnum 3 ['e']), .query (.count 4 .enum)] := by simp [Locals, Local]

-- forcing a container alone leaves the others as they are; one whose callback throws is done as well
example : (forceSelf 6 5 (afterRun 6 forest)).2 = .val () ∧ (startedFor 5 (afterRun 6 forest).log).length = 0 ∧
    (startedFor 5 (forceSelf 6 5 (afterRun 6 forest)).1.log).length = 1 := by decide +kernel

/-- A callback may install a definition on a container that was visited before: it is still pending after the
    recursive force. -/
theorem C62_false :
    let s := (force 6 4 1 (afterRun 6 (forest.take 7 ++ [.install 4 [.install 3 [.op (.createEnum 3 ['e'])]]]))).1
    (force 6 4 1 (afterRun 6 (forest.take 7 ++ [.install 4 [.install 3 [.op (.createEnum 3 ['e'])]]]))).2 = .val () ∧
    (installedFor 3 s.log).length = 1 ∧ (startedFor 3 s.log).length = 0 := by decide +kernel

/-- A callback of a class that defines another class next to it: forcing the class alone is fine, forcing the
    namespace around it never returns, as the list of classes it adds to is locked. -/
theorem C62_deadlock_false :
    let s := afterRun 6 (.op (.registerType 8) :: forest.take 7 ++ [.install 3 [.op (.createClass 2 ['D'] 8)]])
    (force 6 4 2 s).2 = .diverge ∧ (forceSelf 6 3 s).2 = .val () ∧ (walk 6 4 2 s).2 = .val () := by decide +kernel

/-! ### C63 -/

/-- An enumeration that returns has run the container's own definition, then the user's function for each member in
    order up to the first refusal, and nothing else; meanwhile no member was added to the list. -/
theorem C63_enumeration (fuel n : Nat) (cs : List Cmd) (p : Nat) (k : Cat) (func : Nat → List Cmd × Bool)
    (hp : (afterRun fuel cs).w.isContainer p = true) (s' : LW)
    (h : enumerate n p k func (afterRun fuel cs) = (s', .val ())) :
    ∃ s1 as, check n p (afterRun fuel cs) = (s1, .val ()) ∧
      run n ((visited (fun it => (func it.ptr).2) (s1.w.cont p k).items).flatMap fun it => (func it.ptr).1) s1 = (s', .val as) ∧
      (s'.w.cont p k).items = (s1.w.cont p k).items := by
  unfold enumerate at h
  obtain ⟨s1, u, h1, h2⟩ := bind_eq_val h
  have ht := tree_check n p (afterRun fuel cs) (sound_run fuel cs)
  rw [h1] at ht
  have hlt : p < (afterRun fuel cs).w.next := by
    rcases (World.isContainer_iff _ _).1 hp with h | h <;> exact (top_init.run fuel cs).kinds p _ h
  have hv := forEach_val h2
  rw [visit_execs] at hv
  have hs := tree_execs (tree_check n) n ((visited (fun it => (func it.ptr).2) (s1.w.cont p k).items).flatMap fun it => (func it.ptr).1) s1 ht.sound
  unfold run at hv
  cases e : execs (check n) n ((visited (fun it => (func it.ptr).2) (s1.w.cont p k).items).flatMap fun it => (func it.ptr).1) s1 with
  | mk s2 r =>
    rw [e] at hv hs
    cases r with
    | val as =>
      cases hv
      refine ⟨s1, as, h1, e, ?_⟩
      have hpre := hs.lists p k (Nat.lt_of_lt_of_le hlt ht.next)
      have hlen : (s2.w.cont p k).items.length = (s1.w.cont p k).items.length := by
        unfold Lazy.forEach at h2
        dsimp only at h2
        rw [visit_execs] at h2
        unfold run at h2
        rw [e] at h2
        dsimp only at h2
        split at h2
        · assumption
        · cases h2
      exact (hpre.eq_of_length hlen.symm).symm
    | throw _ => cases hv
    | ub => cases hv
    | diverge => cases hv

/-- Every outcome of an enumeration: an exception of the container's own definition; or what the user's function does for each member
    up to the first refusal, an exception of it included; but if that adds to the list, it never returns. -/
theorem C63_outcome (fuel n : Nat) (cs : List Cmd) (p : Nat) (k : Cat) (func : Nat → List Cmd × Bool)
    (hp : (afterRun fuel cs).w.isContainer p = true) :
    (∀ s1 e, check n p (afterRun fuel cs) = (s1, .throw e) → enumerate n p k func (afterRun fuel cs) = (s1, .throw e)) ∧
    ∀ s1 s' r, check n p (afterRun fuel cs) = (s1, .val ()) →
      run n ((visited (fun it => (func it.ptr).2) (s1.w.cont p k).items).flatMap fun it => (func it.ptr).1) s1 = (s', r) →
      ((s'.w.cont p k).items = (s1.w.cont p k).items →
        (enumerate n p k func (afterRun fuel cs)).1 = s' ∧
        ((enumerate n p k func (afterRun fuel cs)).2 = .val () ↔ ∃ as, r = .val as) ∧
        (∀ e, (enumerate n p k func (afterRun fuel cs)).2 = .throw e ↔ r = .throw e) ∧
        ((enumerate n p k func (afterRun fuel cs)).2 = .ub ↔ r = .ub) ∧
        ((enumerate n p k func (afterRun fuel cs)).2 = .diverge ↔ r = .diverge)) ∧
      ((s'.w.cont p k).items ≠ (s1.w.cont p k).items → (enumerate n p k func (afterRun fuel cs)).2 = .diverge) := by
  refine ⟨fun s1 e h => by unfold enumerate LM.bind; rw [h], fun s1 s' r h1 h2 => ?_⟩
  have ht := tree_check n p (afterRun fuel cs) (sound_run fuel cs)
  rw [h1] at ht
  have hlt : p < (afterRun fuel cs).w.next := by
    rcases (World.isContainer_iff _ _).1 hp with h | h <;> exact (top_init.run fuel cs).kinds p _ h
  have hs := tree_execs (tree_check n) n ((visited (fun it => (func it.ptr).2) (s1.w.cont p k).items).flatMap fun it => (func it.ptr).1) s1 ht.sound
  have h2' := h2
  unfold run at h2'
  rw [h2'] at hs
  have hpre := hs.lists p k (Nat.lt_of_lt_of_le hlt ht.next)
  have he : enumerate n p k func (afterRun fuel cs) =
      if (s'.w.cont p k).items.length = (s1.w.cont p k).items.length then (s', outcome r) else (s', .diverge) := by
    unfold enumerate LM.bind
    rw [h1]
    dsimp only
    unfold Lazy.forEach
    dsimp only
    have hv := visit_execs n func (s1.w.cont p k).items s1
    unfold LM.bind at hv
    rw [hv, h2]
  rw [he]
  constructor
  · intro hi
    rw [if_pos (by rw [hi])]
    refine ⟨rfl, ?_, ?_, ?_, ?_⟩ <;> cases r <;> simp [outcome]
  · intro hi
    rw [if_neg fun hl => hi (hpre.eq_of_length hl.symm).symm]

-- asking for the methods of each class, and stopping after the first
example : (enumerate 6 2 .cls (fun q => ([.query (.count q .method), .op (.createEnum 2 ['x'])], true)) (afterRun 6 forest)).2 = .val () := by
  decide +kernel
example : (startedFor 4 (enumerate 6 2 .cls (fun q => ([.query (.count q .method)], false)) (afterRun 6 (forest.eraseIdx 8))).1.log).length = 0 ∧
    (startedFor 4 (enumerate 6 2 .cls (fun q => ([.query (.count q .method)], true)) (afterRun 6 (forest.eraseIdx 8))).1.log).length = 1 := by
  decide +kernel

/-- Defining a class from a function that enumerates the classes of the same namespace never returns, although the
    same definition is fine elsewhere. -/
theorem C63_deadlock_false :
    let s := afterRun 6 (.op (.registerType 8) :: forest.take 7)
    (enumerate 6 2 .cls (fun _ => ([.op (.createClass 2 ['D'] 8)], false)) s).2 = .diverge ∧
    (run 6 [.op (.createClass 2 ['D'] 8)] s).2 = .val [.ptr (some 6)] := by decide +kernel

end Rtti.Props
