import Verif.Lemmas.EachProgress
/-! C75: lists enumerated by functions that use the lists, while other threads use them too. -/
set_option autoImplicit false
namespace Rtti.Props
open Rtti EachRace

/-- C75: a list is not changed while a thread enumerates it: what the function was called with so far and what is still to come are
    together exactly the list, whatever the other threads and the function itself do; no step changes it. -/
theorem C75_undisturbed (fair : Bool) (n : Nat) (programs : Nat → Prog) (is : List Nat) {i : Nat} (hi : i < n) {f : Frame}
    (hf : f ∈ ((run fair (init n programs) is).pc i).frames) :
    f.seen ++ f.rest = ((run fair (init n programs) is).lists f.l).items ∧
    ∀ j s', step fair (run fair (init n programs) is) j = some s' → s'.lists f.l = (run fair (init n programs) is).lists f.l := by
  have o := (Ok.init n programs).run (fair := fair) is
  have hn : (run fair (init n programs) is).n = n := inv_run (P := fun s => s.n = n) (fun _ _ _ e _ h => h.n.trans e) is _ rfl
  have hi' : i < (run fair (init n programs) is).n := by rw [hn]; exact hi
  exact ⟨o.frame i hi' f hf, fun j s' hs => o.lists_kept hi' (step_move hs).1 hf (step_move hs).2⟩

/-- C75: every enumeration that has ended called the function with the items of the list as it was then, in order, up to the first
    refusal or to the end; and the list still begins with these items. -/
theorem C75_finished (fair : Bool) (n : Nat) (programs : Nat → Prog) (is : List Nat) {d : Done} {L : ItemList}
    (h : (d, L) ∈ (run fair (init n programs) is).log) :
    d.seen <+: L.items ∧ (d.more = true → d.seen = L.items) ∧ (d.more = false → d.seen ≠ []) ∧
    L.items <+: ((run fair (init n programs) is).lists d.l).items :=
  ((Ok.init n programs).run (fair := fair) is).log _ h

/-- C75: locks exclude: while a thread changes a list, no other thread gets to read, enumerate or change it; and none gets to change
    it while it is enumerated. -/
theorem C75_exclusive (fair : Bool) {s : State} {i j : Nat} (hi : i < s.n) {l : Lst} :
    ((∃ x k fs, s.pc i = .hold l x k fs) → (∃ k fs, s.pc j = .run (.read l k) fs) ∨ (∃ f k fs, s.pc j = .run (.each l f k) fs) ∨
      (∃ x k fs, s.pc j = .want l x k fs) → step fair s j = none) ∧
    ((∃ f ∈ (s.pc i).frames, f.l = l) → (∃ x k fs, s.pc j = .want l x k fs) → step fair s j = none) := by
  constructor
  · rintro ⟨x, k, fs, e⟩ h
    have hw : s.writing l = true := writing_iff.2 ⟨i, hi, by rw [e]; simp [Pc.holds]⟩
    unfold step
    split
    · rfl
    · rcases h with ⟨k, fs, h⟩ | ⟨f, k, fs, h⟩ | ⟨x, k, fs, h⟩ <;> rw [h] <;> simp [hw]
  · rintro hf ⟨x, k, fs, h⟩
    have hr : s.reading l = true := reading_iff.2 ⟨i, hi, hf⟩
    unfold step
    split
    · rfl
    · rw [h]; simp [hr]

/-- C75: nothing is ever removed or moved. -/
theorem C75_grows (fair : Bool) (s : State) (is : List Nat) (l : Lst) : (s.lists l).items <+: ((run fair s is).lists l).items :=
  inv_run (P := fun s' => (s.lists l).items <+: (s'.lists l).items) (fun _ _ _ e _ h => e.trans (h.grows l)) is s (List.prefix_refl _)

/-- C75: nobody runs forever, whatever the programs. -/
theorem C75_ends (fair : Bool) (σ : Nat → State) : ¬∀ m, ∃ i, step fair (σ m) i = some (σ (m + 1)) := fun h => no_infinite σ h

/-- C75, partial (the functions use lists of greater rank only, such as those of the classes and namespaces they are called with):
    nobody waits forever, with and without preference for waiting writers: as long as a thread has something to do, some thread
    can take a step. Missing: functions that use the list being enumerated, or one from which it is reached (see below). -/
theorem C75_no_deadlock_partial {rank : Lst → Nat} {owns : Lst → Item → Prop} {n : Nat} {programs : Nat → Prog}
    (h : ∀ i, i < n → Ordered rank owns 0 (programs i)) (fair : Bool) (is : List Nat) {i : Nat} (hb : Busy (run fair (init n programs) is) i) :
    ∃ j s', step fair (run fair (init n programs) is) j = some s' :=
  ((Tidy.init h).run is).progress hb

/-- C75, partial (the functions add nothing, and waiting writers do not hold up readers): nobody waits forever, whichever lists
    the functions read or enumerate, the one being enumerated included. -/
theorem C75_readers_first_partial {n : Nat} {programs : Nat → Prog} (h : ∀ i, i < n → ReadingEach (programs i)) (is : List Nat) {i : Nat}
    (hb : Busy (run false (init n programs) is) i) : ∃ j s', step false (run false (init n programs) is) j = some s' :=
  ((Readers.init h).run is).progress hb

/-- C75, partial: so when no thread can move, all have finished. -/
theorem C75_all_done_partial {rank : Lst → Nat} {owns : Lst → Item → Prop} {n : Nat} {programs : Nat → Prog} (fair : Bool)
    (h : (∀ i, i < n → Ordered rank owns 0 (programs i)) ∨ (fair = false ∧ ∀ i, i < n → ReadingEach (programs i))) (is : List Nat)
    (hs : ∀ i, step fair (run fair (init n programs) is) i = none) {i : Nat} (hi : i < n) :
    ∃ b, (run fair (init n programs) is).pc i = .run (.ret b) [] := by
  have hn : (run fair (init n programs) is).n = n := inv_run (P := fun s => s.n = n) (fun _ _ _ e _ h => h.n.trans e) is _ rfl
  have : ((run fair (init n programs) is).pc i).finished = true := by
    cases e : ((run fair (init n programs) is).pc i).finished with
    | true => rfl
    | false =>
      have hb : Busy (run fair (init n programs) is) i := ⟨by rw [hn]; exact hi, e⟩
      rcases h with h | ⟨rfl, h⟩
      · obtain ⟨j, s', hj⟩ := C75_no_deadlock_partial h fair is hb
        rw [hs j] at hj; cases hj
      · obtain ⟨j, s', hj⟩ := C75_readers_first_partial h is hb
        rw [hs j] at hj; cases hj
  unfold Pc.finished at this
  split at this
  · rename_i b e; exact ⟨b, e⟩
  · cases this

/-- C75: a thread that adds to a list it is enumerating never gets on, whatever the others do. -/
theorem C75_own_list (fair : Bool) {s : State} {i : Nat} (hi : i < s.n) {l : Lst} {x : Item} {k : Bool → Prog} {fs : List Frame}
    (hp : s.pc i = .want l x k fs) (hf : ∃ f ∈ fs, f.l = l) (is : List Nat) : (run fair s is).pc i = s.pc i := by
  refine (inv_run (P := fun s' => i < s'.n ∧ s'.pc i = s.pc i) (fun s1 s2 j e hj h => ⟨h.n ▸ e.1, ?_⟩) is s ⟨hi, rfl⟩).2
  by_cases ej : i = j
  · subst ej
    obtain ⟨f, hm, hl⟩ := hf
    have e2 := e.2.trans hp
    cases h with
    | hold hp' hr =>
      rw [e2] at hp'
      cases hp'
      exact absurd hl (not_reading hr e.1 (by rw [e2]; exact hm))
    | next hp' => rw [e2] at hp'; cases hp'
    | close hp' => rw [e2] at hp'; cases hp'
    | read hp' => rw [e2] at hp'; cases hp'
    | each hp' => rw [e2] at hp'; cases hp'
    | want hp' => rw [e2] at hp'; cases hp'
    | added hp' => rw [e2] at hp'; cases hp'
  · rw [h.other ej]; exact e.2

namespace ExEach
def item (n : Nat) : Item := ⟨n, (toString n).toList⟩
def a : Item := ⟨1, ['a']⟩
def b : Item := ⟨2, ['b']⟩
/-- enumerate list 0 and ask for its size for each item -/
def sizes : Prog := .add 0 a fun _ => .each 0 (fun _ => .read 0 fun _ => .ret true) (.ret true)
/-- add to list 0 -/
def adder : Prog := .add 0 b fun _ => .ret true
def two (p q : Prog) : Nat → Prog := fun i => if i = 0 then p else q
/-- enumerate one list and add to another -/
def cross (l l' : Lst) (x : Item) : Prog := .add l x fun _ => .each l (fun _ => .add l' b fun _ => .ret true) (.ret true)
end ExEach
open ExEach

/-- C75 is false where waiting writers hold up readers: a function that asks for the number of items of the list being enumerated,
    while another thread is about to add one: both wait forever. -/
theorem C75_recursive_false : ∃ is, let s := run true (init 2 (two sizes adder)) is
    Busy s 0 ∧ Busy s 1 ∧ ∀ i, step true s i = none := by
  refine ⟨[0, 0, 0, 0, 0, 1], ⟨by decide, by decide⟩, ⟨by decide, by decide⟩, fun i => ?_⟩
  match i with
  | 0 => rfl
  | 1 => rfl
  | i + 2 => rfl

/-- C75 is false for functions that add, even to other lists: two threads that enumerate one list each and add to the other's wait
    for each other forever, with and without preference for waiting writers. -/
theorem C75_crossed_false (fair : Bool) : ∃ is, let s := run fair (init 2 (two (cross 0 1 a) (cross 1 0 a))) is
    Busy s 0 ∧ Busy s 1 ∧ ∀ i, step fair s i = none := by
  refine ⟨[0, 0, 0, 0, 0, 1, 1, 1, 1, 1, 0, 1], ?_⟩
  cases fair
  all_goals
    refine ⟨⟨by decide, by decide⟩, ⟨by decide, by decide⟩, fun i => ?_⟩
    match i with
    | 0 => rfl
    | 1 => rfl
    | i + 2 => rfl

/-- C75 is false for a function that adds to the list being enumerated: no other thread is needed. -/
theorem C75_own_list_false (fair : Bool) : ∃ is, let s := run fair (init 1 fun _ => cross 0 0 a) is
    Busy s 0 ∧ ∀ i, step fair s i = none := by
  refine ⟨[0, 0, 0, 0, 0, 0], ?_⟩
  cases fair
  all_goals
    refine ⟨⟨by decide, by decide⟩, fun i => ?_⟩
    match i with
    | 0 => rfl
    | i + 1 => rfl

/-! ### not vacuous: namespaces enumerated with their members, item `n` has list `n` -/

namespace ExEach
/-- all items below list `l`, to a depth -/
def walk : Nat → Lst → Prog
  | 0, _ => .ret true
  | d + 1, l => .each l (fun x => walk d x.ptr) (.ret true)

/-- item `x` of list `l` was created later -/
def below (l : Lst) (x : Item) : Prop := l < x.ptr

theorem walk_ordered : ∀ (d : Nat) (l : Lst) (r : Nat), r ≤ l → Ordered id below r (walk d l)
  | 0, _, _, _ => .ret true
  | d + 1, l, _, h => .each h (fun x hx => walk_ordered d x.ptr (l + 1) hx) (.ret true)

def builder : Prog := .add 0 (item 1) fun _ => .add 1 (item 2) fun _ => .add 0 (item 3) fun _ => .ret true
end ExEach

/-- `C75_no_deadlock_partial`: one thread builds a tree, two walk it -/
example : ∀ i, i < 3 → Ordered id below 0 (if i = 0 then builder else walk 5 0) := by
  intro i _
  split
  · exact .add (Nat.zero_le _) (by unfold below item; decide) fun _ => .add (Nat.zero_le _) (by unfold below item; decide) fun _ => .add (Nat.zero_le _) (by unfold below item; decide) fun _ => .ret _
  · exact walk_ordered 5 0 0 (Nat.le_refl _)

/-- and the walk of thread 1, begun after the first item was added, holds up the third: it sees one item -/
example : ((run true (init 2 (two builder (walk 2 0))) [0, 0, 0, 1, 1, 0, 0, 0, 0, 0, 1, 1, 1, 1, 1, 0, 0, 0]).log.map
    fun e => (e.1.l, e.1.seen.map (·.ptr), e.1.more, e.2.items.length)) = [(0, [1], true, 1), (1, [2], true, 1)] := by decide +kernel

/-- `C75_readers_first_partial`: the programs that wait forever above end if readers go first -/
example : (∀ i, i < 2 → ReadingEach (two sizes adder i)) ∧
    (∀ i, i < 2 → ((run false (init 2 (two sizes adder)) [0, 0, 0, 0, 0, 1, 0, 0, 0, 1, 1]).pc i).finished = true) := by
  refine ⟨fun i hi => ?_, by decide⟩
  unfold two
  split
  · exact .add fun _ => .each (fun _ => .read fun _ => .ret _) (.ret _)
  · exact .add fun _ => .ret _

end Rtti.Props
