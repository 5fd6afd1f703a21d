import Verif.Lemmas.WalkRaceEnd
/-! C71: base classes declared and the hierarchy walked by several threads. -/
set_option autoImplicit false
namespace Rtti.Props
open Rtti WalkRace

/-- no class is declared its own direct or indirect base -/
def NoCycles (rank : Ptr → Nat) (programs : Nat → List Req) : Prop := ∀ i d b, Req.addBase d b ∈ programs i → rank b < rank d

/-- C71: the answer of every finished walk was right when it was given or when it was asked for: a class found is a hit and is
    reached from the class asked (now, hence at the moment of the answer, since this holds after every schedule); if none was
    found, none was reachable when the call was made. -/
theorem C71_answers {rank : Ptr → Nat} {n : Nat} {programs : Nat → List Req} (hc : NoCycles rank programs) (fair : Bool) (is : List Nat)
    {i : Nat} {q : Walk} {r : Option Ptr} (h : (q, r) ∈ ((run fair (init n programs) is).threads i).results) :
    (∀ c, r = some c → q.hit c = true ∧ Leads (run fair (init n programs) is).bases q.d c) ∧
    (r = none → ∀ c, q.hit c = true → ¬Leads q.start q.d c) := by
  have o := (Ok.init rank n programs hc).run (fair := fair) is
  have := o.results i _ h
  refine ⟨fun c e => ?_, fun e => ?_⟩ <;> subst e <;> exact this

/-- C71: the bases a walk knew when it was called are still there, in the same order, at every later time. -/
theorem C71_bases_kept {n : Nat} {programs : Nat → List Req} (fair : Bool) (is is' : List Nat) (d : Ptr) :
    (run fair (init n programs) is).bases d <+: (run fair (init n programs) (is ++ is')).bases d := by
  have one : ∀ s i, s.bases d <+: ((step fair s i).getD s).bases d := by
    intro s i
    unfold step
    repeat' split
    all_goals try exact List.prefix_refl _
    rename_i d' b e
    simp only [Option.getD_some]
    by_cases h : d = d'
    · subst h
      rw [upd_same]
      unfold append
      split
      · exact List.prefix_refl _
      · exact List.prefix_append ..
    · rw [upd_ne _ _ h]; exact List.prefix_refl _
  have many : ∀ (is : List Nat) s, s.bases d <+: (run fair s is).bases d := by
    intro is
    induction is with
    | nil => exact fun s => List.prefix_refl _
    | cons i is ih => exact fun s => (one s i).trans (ih _)
  have app : ∀ (is : List Nat) s, run fair s (is ++ is') = run fair (run fair s is) is' := by
    intro is
    induction is with
    | nil => exact fun s => rfl
    | cons i is ih => exact fun s => ih _
  rw [app]
  exact many is' _

/-- C71: nobody waits forever: as long as a thread has something to do, some thread can take a step, whether or not waiting
    writers hold up readers. -/
theorem C71_no_deadlock {rank : Ptr → Nat} {n : Nat} {programs : Nat → List Req} (hc : NoCycles rank programs) (fair : Bool) (is : List Nat)
    {i : Nat} (h : Busy (run fair (init n programs) is) i) : ∃ j s', step fair (run fair (init n programs) is) j = some s' :=
  progress ((Ok.init rank n programs hc).run is) h

/-- C71: and every schedule comes to an end: there is a bound on the steps in which a thread moves. -/
theorem C71_ends {rank : Ptr → Nat} {n : Nat} {programs : Nat → List Req} (hc : NoCycles rank programs) (fair : Bool) :
    ∃ m, ∀ is, moves fair (init n programs) is ≤ m :=
  ⟨_, moves_le (Ok.init rank n programs hc) (Asked.init n programs) hc⟩

/-- C71: when no thread can move any more, every call has returned: the bases are exactly those declared, the lists of derived
    classes mirror them, and all walks have been answered, in order. -/
theorem C71_all_done {rank : Ptr → Nat} {n : Nat} {programs : Nat → List Req} (hc : NoCycles rank programs) (fair : Bool) (is : List Nat)
    (h : ∀ i, step fair (run fair (init n programs) is) i = none) :
    let s := run fair (init n programs) is
    (∀ d b, b ∈ s.bases d ↔ ∃ i, i < n ∧ Req.addBase d b ∈ programs i) ∧
    (∀ d b, b ∈ s.bases d ↔ d ∈ s.derived b) ∧ (∀ d, (s.bases d).Nodup ∧ (s.derived d).Nodup) ∧
    (∀ i, i < n → (s.threads i).results.map (fun r => (r.1.d, r.1.hit)) =
      (programs i).filterMap fun | .find d hit => some (d, hit) | _ => none) := by
  have o := (Ok.init rank n programs hc).run (fair := fair) is
  have a := (Asked.init n programs).run (fair := fair) is
  have idle : ∀ i, i < n → ((run fair (init n programs) is).threads i).pc = .idle ∧ ((run fair (init n programs) is).threads i).todo = [] := by
    intro i hi
    refine Classical.byContradiction fun hn => ?_
    have : Busy (run fair (init n programs) is) i := ⟨by rw [a.num]; exact hi, by
      rw [Classical.not_and_iff_not_or_not] at hn; exact hn⟩
    obtain ⟨j, s', e⟩ := progress (fair := fair) o this
    rw [h j] at e; cases e
  have hw := fun i => run_walks (fair := fair) (init n programs) is i
  generalize run fair (init n programs) is = s at *
  have idle' : ∀ i, (s.threads i).pc = .idle := fun i => by
    by_cases hi : i < n
    · exact (idle i hi).1
    · exact o.out i (by rw [a.num]; omega)
  refine ⟨fun d b => ⟨a.base d b, ?_⟩, fun d b => ⟨fun hb => ?_, o.back b d⟩, o.nodup, fun i hi => ?_⟩
  · rintro ⟨i, hi, hm⟩
    rcases a.got i d b hi hm with h | h | h | h
    · rw [(idle i hi).2] at h; cases h
    · rw [idle' i] at h; cases h
    · rw [idle' i] at h; cases h
    · exact h
  · rcases o.mirror d b hb with h | ⟨i, h⟩
    · exact h
    · rw [idle' i] at h; cases h
  · have := hw i
    simp only [Thread.walks, (idle i hi).2, (idle i hi).1, Pc.walk, List.append_nil, init, finds, List.filterMap_nil, List.map_nil,
      List.nil_append] at this
    exact this

/-- C71: a list is not changed while a thread walks it, and no thread takes a lock it already holds. -/
theorem C71_walks_undisturbed {rank : Ptr → Nat} {n : Nat} {programs : Nat → List Req} (hc : NoCycles rank programs) (fair : Bool) (is : List Nat)
    {i : Nat} {c : Ptr} {rest : List Ptr} (h : (c, rest) ∈ ((run fair (init n programs) is).threads i).pc.frames) :
    rest <:+ (run fair (init n programs) is).bases c ∧
    (∀ j s', step fair (run fair (init n programs) is) j = some s' → s'.bases c = (run fair (init n programs) is).bases c) ∧
    (∀ q fs, ((run fair (init n programs) is).threads i).pc ≠ .enter q c fs) := by
  have o := (Ok.init rank n programs hc).run (fair := fair) is
  generalize run fair (init n programs) is = s at *
  refine ⟨?_, fun j s' hs => ?_, fun q fs e => ?_⟩
  · have := o.pc i
    cases e : (s.threads i).pc with
    | enter q c fs => rw [e] at this h; exact this.1.suffix _ h
    | loop q fs => rw [e] at this h; exact this.1.suffix _ h
    | unwind q c fs => rw [e] at this h; exact this.1.suffix _ h
    | _ => rw [e] at h; cases h
  · unfold step at hs
    repeat' split at hs
    all_goals first | cases hs | skip
    all_goals try rfl
    rename_i d b e
    have := (o.alone j d b e).1 i _ h
    simp only
    rw [upd_ne _ _ this]
  · have := o.pc i
    rw [e] at this h
    have := (List.pairwise_cons.1 this.2.2.1).1 c (List.mem_map_of_mem (f := (·.1)) h)
    omega

-- two threads: one declares 3 : 2 and 2 : 1, the other asks whether 3 inherits from 1 (twice)
namespace ExWalk
def programs : Nat → List Req
  | 0 => [.addBase 3 2, .addBase 2 1]
  | 1 => [.find 3 (· == 1), .find 3 (· == 1)]
  | _ => []
example : NoCycles id programs := by
  intro i d b h
  match i with
  | 0 => simp only [programs, List.mem_cons, Req.addBase.injEq, List.not_mem_nil, or_false] at h; rcases h with ⟨rfl, rfl⟩ | ⟨rfl, rfl⟩ <;> decide
  | 1 => simp [programs] at h
  | _ + 2 => simp [programs] at h
-- the walk waits at 2 while 1 is being added, and then finds it
example : ((run true (init 2 programs) [0, 0, 0, 0, 1, 1, 1, 0, 0, 1, 0, 1, 0, 1, 1, 1, 1, 1, 1]).threads 1).results.map (·.2) = [some 1] := by
  decide +kernel
example : step true (run true (init 2 programs) [0, 0, 0, 0, 1, 1, 1, 0]) 1 = none := by decide +kernel
end ExWalk

end Rtti.Props
