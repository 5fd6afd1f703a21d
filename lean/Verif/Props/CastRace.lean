import Verif.Lemmas.CastRaceEnd
/-! C84: pointers cast upwards while other threads declare base classes. -/
set_option autoImplicit false
namespace Rtti.Props
open Rtti CastRace

/-- no class is declared its own direct or indirect base -/
def NoCastCycles (rank : Ptr → Nat) (programs : Nat → List Req) : Prop :=
  ∀ i d b f, Req.addBase d b f ∈ programs i → rank b < rank d

/-- C84: what a cast answers, whatever the other threads do meanwhile. An address is what the declared casters give along one way
    up, all of it declared by the time of the answer. A null pointer is answered only if the target was no base when the call was
    made. So a cast to what was a base all along never fails. -/
theorem C84_answers {rank : Ptr → Nat} {n : Nat} {programs : Nat → List Req} (hc : NoCastCycles rank programs) (fair : Bool) (is : List Nat)
    {i : Nat} {a : Answer} (h : a ∈ ((run fair (init n programs) is).threads i).answers) :
    (∀ y, a.r = some y → Route a.stop a.q.d a.q.x a.q.t y) ∧
    (a.r = none → ¬Leads a.q.start a.q.d a.q.t) ∧
    Grown a.q.start a.stop ∧ Grown a.stop (run fair (init n programs) is).bases := by
  obtain ⟨h1, h2, h3⟩ := ((Ok.init rank n programs hc).run (fair := fair) is).answers i a h
  refine ⟨fun y e => ?_, fun e => ?_, h1, h2⟩
  · rw [e] at h3; exact h3.1
  · rw [e] at h3; exact h3

/-- C84: if no base was declared between the call and its answer, the answer is that of a single thread: the address reached by
    the base declared first among those that lead to the target, at every class on the way (there is just one such address), and a
    null pointer exactly if the target is no base. -/
theorem C84_undisturbed {rank : Ptr → Nat} {n : Nat} {programs : Nat → List Req} (hc : NoCastCycles rank programs) (fair : Bool) (is : List Nat)
    {i : Nat} {a : Answer} (h : a ∈ ((run fair (init n programs) is).threads i).answers) (hq : a.q.start = a.stop) :
    (∀ y, a.r = some y ↔ First a.stop a.q.t a.q.d a.q.x y) ∧ (a.r = none ↔ ¬Leads a.stop a.q.d a.q.t) := by
  obtain ⟨h1, h2, h3⟩ := ((Ok.init rank n programs hc).run (fair := fair) is).answers i a h
  cases e : a.r with
  | none =>
    rw [e] at h3
    rw [hq] at h3
    exact ⟨fun y => ⟨nofun, fun hf => absurd hf.route.leads h3⟩, ⟨fun _ => h3, fun _ => rfl⟩⟩
  | some z =>
    rw [e] at h3
    refine ⟨fun y => ⟨fun e => ?_, fun hf => ?_⟩, ⟨nofun, fun hn => absurd h3.1.leads hn⟩⟩
    · cases e; exact h3.2 hq
    · rw [(h3.2 hq).unique hf]

/-- C84: nobody waits forever, whether or not waiting writers hold up readers. -/
theorem C84_no_deadlock {rank : Ptr → Nat} {n : Nat} {programs : Nat → List Req} (hc : NoCastCycles rank programs) (fair : Bool) (is : List Nat)
    {i : Nat} (h : Busy (run fair (init n programs) is) i) : ∃ j s', step fair (run fair (init n programs) is) j = some s' :=
  progress ((Ok.init rank n programs hc).run is) h

/-- C84: every schedule comes to an end: there is a bound on the steps in which a thread moves. -/
theorem C84_ends {rank : Ptr → Nat} {n : Nat} {programs : Nat → List Req} (hc : NoCastCycles rank programs) (fair : Bool) :
    ∃ m, ∀ is, moves fair (init n programs) is ≤ m :=
  ⟨_, moves_le (Ok.init rank n programs hc) (Few.init n programs)⟩

/-- C84: when no thread can move any more, every call has returned: the bases are those declared, each once and with a caster it
    was declared with, and all casts have been answered, in order. -/
theorem C84_all_done {rank : Ptr → Nat} {n : Nat} {programs : Nat → List Req} (hc : NoCastCycles rank programs) (fair : Bool) (is : List Nat)
    (h : ∀ i, step fair (run fair (init n programs) is) i = none) :
    let s := run fair (init n programs) is
    (∀ d b, b ∈ (s.bases d).map (·.1) ↔ ∃ i f, i < n ∧ Req.addBase d b f ∈ programs i) ∧
    (∀ d it, it ∈ s.bases d → ∃ i, i < n ∧ Req.addBase d it.1 it.2 ∈ programs i) ∧
    (∀ d, ((s.bases d).map (·.1)).Nodup) ∧
    (∀ i, i < n → (s.threads i).answers.map (fun a => (a.q.d, a.q.t, a.q.x)) =
      (programs i).filterMap fun | .cast d t x => some (d, t, x) | _ => none) := by
  have o := (Ok.init rank n programs hc).run (fair := fair) is
  have a := (Asked.init n programs).run (fair := fair) is
  have idle : ∀ i, i < n → ((run fair (init n programs) is).threads i).pc = .idle ∧ ((run fair (init n programs) is).threads i).todo = [] := by
    intro i hi
    refine Classical.byContradiction fun hn => ?_
    have : Busy (run fair (init n programs) is) i := ⟨by rw [a.num]; exact hi, by
      rw [Classical.not_and_iff_not_or_not] at hn; exact hn⟩
    obtain ⟨j, s', e⟩ := progress (fair := fair) o this
    rw [h j] at e; cases e
  have hw := fun i => run_calls (fair := fair) (init n programs) is i
  generalize run fair (init n programs) is = s at *
  refine ⟨fun d b => ⟨fun hb => ?_, ?_⟩, a.base, a.once, fun i hi => ?_⟩
  · obtain ⟨it, h1, h2⟩ := List.mem_map.1 hb
    obtain ⟨i, hi, hm⟩ := a.base d it h1
    exact ⟨i, it.2, hi, h2 ▸ hm⟩
  · rintro ⟨i, f, hi, hm⟩
    rcases a.got i d b f hi hm with h | h | h | h
    · rw [(idle i hi).2] at h; cases h
    · rw [(idle i hi).1] at h; cases h
    · rw [(idle i hi).1] at h; cases h
    · exact h
  · have := hw i
    simp only [Thread.calls, (idle i hi).2, (idle i hi).1, Pc.call, List.append_nil, init, casts, List.filterMap_nil, List.map_nil,
      List.nil_append] at this
    exact this

/-- C84: a list is not changed while a cast is in its `for_each`, and no thread takes a lock it already holds. -/
theorem C84_lists_undisturbed {rank : Ptr → Nat} {n : Nat} {programs : Nat → List Req} (hc : NoCastCycles rank programs) (fair : Bool) (is : List Nat)
    {i : Nat} {c : Ptr} (h : c ∈ ((run fair (init n programs) is).threads i).pc.locks) :
    (∀ j s', step fair (run fair (init n programs) is) j = some s' → s'.bases c = (run fair (init n programs) is).bases c) ∧
    ((run fair (init n programs) is).threads i).pc.locks.Nodup ∧
    (∀ q x outer, ((run fair (init n programs) is).threads i).pc ≠ .enter q c x outer) ∧
    (∀ q c' x b f rest outer asked fs, ((run fair (init n programs) is).threads i).pc ≠ .test q c' x b f rest outer asked (.enter c) fs) := by
  have o := (Ok.init rank n programs hc).run (fair := fair) is
  generalize run fair (init n programs) is = s at *
  have nodup : ∀ l, Ranked rank l → l.Nodup := fun l h => h.imp fun hlt e => by rw [e] at hlt; omega
  refine ⟨fun j s' hs => ?_, ?_, fun q x outer e => ?_, fun q c' x b f rest outer asked fs e => ?_⟩
  · unfold step at hs
    split at hs
    · cases hs
    split at hs
    · split at hs <;> cases hs <;> rfl
    · cases hs; rfl
    · split at hs <;> cases hs; rfl
    · rename_i d b f e
      cases hs
      have := (o.alone j d b f e).1 i
      exact upd_ne _ _ fun e => this (e ▸ h)
    · split at hs <;> cases hs; rfl
  · have hp := o.pc i
    cases e : (s.threads i).pc with
    | idle => exact List.nodup_nil
    | want => exact List.nodup_nil
    | hold => exact List.nodup_nil
    | enter q c x outer => rw [e] at hp; exact nodup _ (List.pairwise_cons.1 hp.2.1).2
    | items q c x rest outer => rw [e] at hp; exact nodup _ hp.2.2.1
    | unwind q r outer => rw [e] at hp; exact nodup _ hp.2.1
    | test q c x b f rest outer asked m fs =>
      rw [e] at hp
      have := hp.test
      cases m with
      | enter y => exact nodup _ (List.pairwise_cons.1 this.2.1).2
      | loop => exact nodup _ this.1
      | found => exact nodup _ this.1
  · have hp := o.pc i
    rw [e] at hp h
    have := (List.pairwise_cons.1 hp.2.1).1 c h
    omega
  · have hp := o.pc i
    rw [e] at hp h
    have := (List.pairwise_cons.1 hp.test.2.1).1 c h
    omega

-- two threads: one declares 4 : 3, 2 and 2 : 1 and 3 : 1, the other casts 4 to 1
namespace ExCastRace
def programs : Nat → List Req
  | 0 => [.addBase 4 3 (· + 100), .addBase 4 2 (· + 10), .addBase 2 1 (· + 1), .addBase 3 1 (· + 2)]
  | 1 => [.cast 4 1 1000, .cast 4 1 1000, .cast 1 4 1000]
  | _ => []
example : NoCastCycles id programs := by
  intro i d b f h
  match i with
  | 0 =>
    simp only [programs, List.mem_cons, Req.addBase.injEq, List.not_mem_nil, or_false] at h
    rcases h with ⟨rfl, rfl, _⟩ | ⟨rfl, rfl, _⟩ | ⟨rfl, rfl, _⟩ | ⟨rfl, rfl, _⟩ <;> decide
  | 1 => simp [programs] at h
  | _ + 2 => simp [programs] at h

/-- the other thread at once, whenever it can -/
def sched : List Nat :=
  -- 4 : 3, 4 : 2, 2 : 1 are declared; the cast has asked 3 in vain and asks 2 while 3 : 1 is declared
  List.replicate 9 0 ++ List.replicate 8 1 ++ [0, 0, 0] ++ List.replicate 40 1
def final : State := run true (init 2 programs) sched

-- the first cast goes by 2, as declared when it began; the second, called afterwards, by 3
example : (final.threads 1).answers.map (·.r) = [some 1011, some 1102, none] := by decide +kernel
example : (List.range 2).all (fun i => (step true final i).isNone) = true := by decide +kernel
-- during the second and the third nothing was declared
example : (final.threads 1).answers.map (fun a => (List.range 5).all fun c => (a.q.start c).length == (a.stop c).length) =
    [false, true, true] := by decide +kernel
-- while the cast is in the list of 4, a declaration for 4 waits
example : step false (run false (init 2 fun i => if i = 0 then [.addBase 4 3 id, .addBase 4 2 id] else programs i)
    [0, 0, 0, 1, 1, 0]) 0 = none := by decide +kernel
end ExCastRace

end Rtti.Props
