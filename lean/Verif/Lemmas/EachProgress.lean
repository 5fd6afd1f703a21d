import Verif.Lemmas.EachRace
/-! Behind C75: no thread waits forever. -/
set_option autoImplicit false
namespace Rtti.EachRace

/-- the lock a thread is about to take -/
def target : Pc → Option Lst
  | .run (.read l _) _ => some l
  | .run (.each l _ _) _ => some l
  | .want l _ _ _ => some l
  | _ => none

/-- why a thread cannot move -/
theorem stuck {fair : Bool} {s : State} {i : Nat} (hi : i < s.n) (hb : (s.pc i).finished = false) (h : step fair s i = none) :
    ∃ l, target (s.pc i) = some l ∧
      (s.writing l = true ∨ ((s.pc i).wants l = true ∧ s.reading l = true) ∨ (fair = true ∧ (s.pc i).wants l = false ∧ s.waiting l = true)) := by
  unfold step at h
  rw [if_neg (by omega)] at h
  split at h
  · rename_i hp
    rw [hp] at hb; cases hb
  · split at h <;> cases h
  · rename_i l k fs hp
    split at h
    · rename_i hc
      rw [hp]
      refine ⟨l, rfl, ?_⟩
      simp only [Bool.or_eq_true, Bool.and_eq_true] at hc
      rcases hc with hc | hc
      · exact .inl hc
      · exact .inr (.inr ⟨hc.1, rfl, hc.2⟩)
    · cases h
  · rename_i l f k fs hp
    split at h
    · rename_i hc
      rw [hp]
      refine ⟨l, rfl, ?_⟩
      simp only [Bool.or_eq_true, Bool.and_eq_true] at hc
      rcases hc with hc | hc
      · exact .inl hc
      · exact .inr (.inr ⟨hc.1, rfl, hc.2⟩)
    · cases h
  · cases h
  · rename_i l x k fs hp
    split at h
    · rename_i hc
      rw [hp]
      refine ⟨l, rfl, ?_⟩
      simp only [Bool.or_eq_true] at hc
      rcases hc with hc | hc
      · exact .inr (.inl ⟨by simp [Pc.wants], hc⟩)
      · exact .inl hc
    · cases h
  · cases h

/-- who holds a lock in exclusive mode can always move -/
theorem holder_moves {fair : Bool} {s : State} {l : Lst} (h : s.writing l = true) : ∃ j, (step fair s j).isSome = true := by
  obtain ⟨j, hj, hh⟩ := writing_iff.1 h
  obtain ⟨x, k, fs, e⟩ := holds_iff.1 hh
  refine ⟨j, ?_⟩
  unfold step
  rw [if_neg (by omega), e]
  rfl

theorem busy_of_frames {p : Pc} {f : Frame} (h : f ∈ p.frames) : p.finished = false := by
  unfold Pc.finished
  split
  · cases h
  · rfl

theorem busy_of_wants {p : Pc} {l : Lst} (h : p.wants l = true) : p.finished = false := by
  obtain ⟨x, k, fs, rfl⟩ := wants_iff.1 h
  rfl

/-! ### locks taken in order -/

variable {rank : Lst → Nat} {owns : Lst → Item → Prop}

inductive Stack (rank : Lst → Nat) (owns : Lst → Item → Prop) : Nat → List Frame → Prop
  | nil (r : Nat) : Stack rank owns r []
  | cons {r : Nat} {f : Frame} {fs : List Frame} : (∀ x, owns f.l x → Ordered rank owns (rank f.l + 1) (f.f x)) → Ordered rank owns r f.k →
      r ≤ rank f.l → Stack rank owns r fs → Stack rank owns (rank f.l + 1) (f :: fs)

theorem Stack.lower {r : Nat} {fs : List Frame} (h : Stack rank owns r fs) : ∀ f ∈ fs, rank f.l < r := by
  induction h with
  | nil => intro f hf; cases hf
  | cons _ _ hr _ ih =>
    intro g hg
    rcases List.mem_cons.1 hg with rfl | hg
    · exact Nat.lt_succ_self _
    · have := ih g hg
      omega

def PcOk (rank : Lst → Nat) (owns : Lst → Item → Prop) : Pc → Prop
  | .run p fs => ∃ r, Ordered rank owns r p ∧ Stack rank owns r fs
  | .want l x k fs => ∃ r, r ≤ rank l ∧ owns l x ∧ (∀ b, Ordered rank owns r (k b)) ∧ Stack rank owns r fs
  | .hold l x k fs => ∃ r, r ≤ rank l ∧ owns l x ∧ (∀ b, Ordered rank owns r (k b)) ∧ Stack rank owns r fs

structure Tidy (rank : Lst → Nat) (owns : Lst → Item → Prop) (s : State) : Prop where
  ok : Ok s
  owned : ∀ l, ∀ x ∈ (s.lists l).items, owns l x
  pc : ∀ i, i < s.n → PcOk rank owns (s.pc i)

theorem Tidy.init {n : Nat} {programs : Nat → Prog} (h : ∀ i, i < n → Ordered rank owns 0 (programs i)) : Tidy rank owns (init n programs) where
  ok := .init n programs
  owned := by intro l x hx; cases hx
  pc := fun i hi => ⟨0, h i hi, .nil 0⟩

theorem Tidy.move {fair : Bool} {s s' : State} {i : Nat} (t : Tidy rank owns s) (hi : i < s.n) (h : Move fair s i s') : Tidy rank owns s' := by
  have o' := t.ok.move hi h
  have hpc : PcOk rank owns (s'.pc i) → ∀ j, j < s'.n → PcOk rank owns (s'.pc j) := fun h0 j hj => by
    by_cases e : j = i
    · subst e; exact h0
    · rw [h.other e]; exact t.pc j (by rw [h.n] at hj; exact hj)
  have pi := t.pc i hi
  have same : ∀ (f : Nat → Pc) (p : Pc), upd f i p i = p := fun f p => upd_same ..
  cases h with
  | @next f x rest fs hp hr =>
    refine ⟨o', t.owned, hpc ?_⟩
    rw [hp] at pi
    obtain ⟨r, _, hs⟩ := pi
    simp only [State.put, same]
    cases hs with
    | cons h1 h2 h3 h4 =>
      refine ⟨rank f.l + 1, h1 x (t.owned f.l x ?_), .cons (f := { f with seen := f.seen ++ [x], rest := rest }) h1 h2 h3 h4⟩
      have := t.ok.frame i hi f (by rw [hp]; simp [Pc.frames])
      rw [← this, hr]
      simp
  | @close more f fs hp hm =>
    refine ⟨o', t.owned, hpc ?_⟩
    rw [hp] at pi
    obtain ⟨r, _, hs⟩ := pi
    simp only [State.put, same]
    cases hs with
    | cons h1 h2 h3 h4 => exact ⟨_, h2, h4⟩
  | @read l k fs hp hw _ =>
    refine ⟨o', t.owned, hpc ?_⟩
    rw [hp] at pi
    obtain ⟨r, ho, hs⟩ := pi
    simp only [State.put, same]
    cases ho with
    | read h1 h2 => exact ⟨r, h2 _ (t.owned l), hs⟩
  | @each l f k fs hp hw _ =>
    refine ⟨o', t.owned, hpc ?_⟩
    rw [hp] at pi
    obtain ⟨r, ho, hs⟩ := pi
    simp only [State.put, same]
    cases ho with
    | each h1 h2 h3 => exact ⟨rank l + 1, .ret _, .cons (f := ⟨l, [], (s.lists l).items, f, k⟩) h2 h3 h1 hs⟩
  | @want l x k fs hp =>
    refine ⟨o', t.owned, hpc ?_⟩
    rw [hp] at pi
    obtain ⟨r, ho, hs⟩ := pi
    simp only [State.put, same]
    cases ho with
    | add h1 h2 h3 => exact ⟨r, h1, h2, h3, hs⟩
  | @hold l x k fs hp hr hw =>
    refine ⟨o', t.owned, hpc ?_⟩
    rw [hp] at pi
    simp only [State.put, same]
    exact pi
  | @added l x k fs hp =>
    rw [hp] at pi
    obtain ⟨r, h1, h2, h3, h4⟩ := pi
    refine ⟨o', fun l' y hy => ?_, hpc ?_⟩
    · replace hy : y ∈ (upd s.lists l ((s.lists l).add (some x)).1 l').items := hy
      by_cases e : l' = l
      · subst e
        rw [upd_same] at hy
        unfold ItemList.add at hy
        dsimp only at hy
        split at hy
        · rcases List.mem_append.1 hy with hy | hy
          · exact t.owned _ _ hy
          · rw [List.mem_singleton.1 hy]; exact h2
        · exact t.owned _ _ hy
      · rw [upd_ne _ _ e] at hy; exact t.owned _ _ hy
    · simp only [State.put, same]
      exact ⟨r, h3 _, h4⟩

theorem Tidy.run {fair : Bool} {s : State} (t : Tidy rank owns s) (is : List Nat) : Tidy rank owns (run fair s is) :=
  inv_run (fun _ _ _ t hi h => t.move hi h) is s t

/-- what a thread waits for is above what it holds -/
theorem PcOk.above {p : Pc} (h : PcOk rank owns p) {l : Lst} (ht : target p = some l) : ∀ f ∈ p.frames, rank f.l < rank l := by
  unfold target at ht
  split at ht
  · cases ht
    obtain ⟨r, ho, hs⟩ := h
    cases ho with
    | read h1 _ => exact fun f hf => Nat.lt_of_lt_of_le (hs.lower f hf) h1
  · cases ht
    obtain ⟨r, ho, hs⟩ := h
    cases ho with
    | each h1 _ _ => exact fun f hf => Nat.lt_of_lt_of_le (hs.lower f hf) h1
  · cases ht
    obtain ⟨r, h1, _, _, hs⟩ := h
    exact fun f hf => Nat.lt_of_lt_of_le (hs.lower f hf) h1
  · cases ht

theorem bounded (rank : Lst → Nat) (pc : Nat → Pc) (n : Nat) : ∃ B, ∀ j, j < n → ∀ l, target (pc j) = some l → rank l ≤ B := by
  induction n with
  | zero => exact ⟨0, fun j hj => absurd hj (by omega)⟩
  | succ n ih =>
    obtain ⟨B, hB⟩ := ih
    cases e : target (pc n) with
    | none =>
      refine ⟨B, fun j hj l hl => ?_⟩
      rcases Nat.lt_succ_iff_lt_or_eq.1 hj with h | rfl
      · exact hB j h l hl
      · rw [e] at hl; cases hl
    | some l0 =>
      refine ⟨max B (rank l0), fun j hj l hl => ?_⟩
      rcases Nat.lt_succ_iff_lt_or_eq.1 hj with h | rfl
      · have := hB j h l hl
        omega
      · rw [e] at hl; cases hl
        omega

theorem Tidy.progress {fair : Bool} {s : State} (t : Tidy rank owns s) {i : Nat} (h : Busy s i) : ∃ j s', step fair s j = some s' := by
  refine Classical.byContradiction fun hn => ?_
  have none : ∀ j, step fair s j = none := fun j => by
    cases e : step fair s j with
    | none => rfl
    | some s' => exact absurd ⟨j, s', e⟩ hn
  have nowrite : ∀ l, s.writing l = true → False := fun l hw => by
    obtain ⟨j, hj⟩ := holder_moves (fair := fair) hw
    rw [none j] at hj; cases hj
  -- a reader of a list that another thread waits for waits for a greater one itself
  have reader : ∀ l, s.reading l = true → ∃ j, j < s.n ∧ (s.pc j).finished = false ∧ ∃ l', target (s.pc j) = some l' ∧ rank l < rank l' := by
    intro l hr
    obtain ⟨j, hj, f, hf, e⟩ := reading_iff.1 hr
    have hb := busy_of_frames hf
    obtain ⟨l', hl', _⟩ := stuck hj hb (none j)
    exact ⟨j, hj, hb, l', hl', e ▸ (t.pc j hj).above hl' f hf⟩
  have climb : ∀ i, i < s.n → (s.pc i).finished = false → ∀ l, target (s.pc i) = some l →
      ∃ j, j < s.n ∧ (s.pc j).finished = false ∧ ∃ l', target (s.pc j) = some l' ∧ rank l < rank l' := by
    intro i hi hb l hl
    obtain ⟨l', hl', hc⟩ := stuck hi hb (none i)
    rw [hl] at hl'; cases hl'
    rcases hc with hc | ⟨_, hc⟩ | ⟨_, _, hc⟩
    · exact (nowrite l hc).elim
    · exact reader l hc
    · obtain ⟨j, hj, hw⟩ := waiting_iff.1 hc
      obtain ⟨x, k, fs, e⟩ := wants_iff.1 hw
      obtain ⟨l', hl', hc'⟩ := stuck hj (busy_of_wants hw) (none j)
      rw [e] at hl'
      cases hl'
      rcases hc' with hc' | ⟨_, hc'⟩ | ⟨_, h0, _⟩
      · exact (nowrite l hc').elim
      · exact reader l hc'
      · rw [hw] at h0; cases h0
  obtain ⟨B, hB⟩ := bounded rank s.pc s.n
  have all : ∀ m, ∃ j, j < s.n ∧ (s.pc j).finished = false ∧ ∃ l, target (s.pc j) = some l ∧ m ≤ rank l := by
    intro m
    induction m with
    | zero =>
      obtain ⟨l, hl, _⟩ := stuck h.1 h.2 (none i)
      exact ⟨i, h.1, h.2, l, hl, Nat.zero_le _⟩
    | succ m ih =>
      obtain ⟨j, hj, hb, l, hl, hm⟩ := ih
      obtain ⟨j', hj', hb', l', hl', hlt⟩ := climb j hj hb l hl
      exact ⟨j', hj', hb', l', hl', by omega⟩
  obtain ⟨j, hj, _, l, hl, hm⟩ := all (B + 1)
  have := hB j hj l hl
  omega

/-! ### readers first, and functions that only read -/

/-- the thread has no enumeration running and may add, or has some and will not until they have ended -/
inductive Reads : Prog → List Frame → Prop
  | top {p : Prog} : ReadingEach p → Reads p []
  | inner {p : Prog} {f : Frame} {fs : List Frame} : ReadOnly p → (∀ x, ReadOnly (f.f x)) → Reads f.k fs → Reads p (f :: fs)

theorem ReadOnly.reading {p : Prog} (h : ReadOnly p) : ReadingEach p := by
  induction h with
  | ret b => exact .ret b
  | read _ ih => exact .read ih
  | each h1 _ _ ih => exact .each h1 ih

def PcReads : Pc → Prop
  | .run p fs => Reads p fs
  | .want _ _ k fs => fs = [] ∧ ∀ b, ReadingEach (k b)
  | .hold _ _ k fs => fs = [] ∧ ∀ b, ReadingEach (k b)

def Readers (s : State) : Prop := ∀ i, i < s.n → PcReads (s.pc i)

theorem Readers.init {n : Nat} {programs : Nat → Prog} (h : ∀ i, i < n → ReadingEach (programs i)) : Readers (init n programs) :=
  fun i hi => .top (h i hi)

theorem Readers.move {fair : Bool} {s s' : State} {i : Nat} (t : Readers s) (hi : i < s.n) (h : Move fair s i s') : Readers s' := by
  have hpc : PcReads (s'.pc i) → Readers s' := fun h0 j hj => by
    by_cases e : j = i
    · subst e; exact h0
    · rw [h.other e]; exact t j (by rw [h.n] at hj; exact hj)
  have pi := t i hi
  have same : ∀ (f : Nat → Pc) (p : Pc), upd f i p i = p := fun f p => upd_same ..
  refine hpc ?_
  cases h with
  | @next f x rest fs hp hr =>
    rw [hp] at pi
    simp only [State.put, same]
    cases pi with
    | inner _ h2 h3 => exact .inner (h2 x) h2 h3
  | @close more f fs hp hm =>
    rw [hp] at pi
    simp only [State.put, same]
    cases pi with
    | inner _ h2 h3 => exact h3
  | @read l k fs hp hw _ =>
    rw [hp] at pi
    simp only [State.put, same]
    cases pi with
    | top h => cases h with | read h => exact .top (h _)
    | inner h h2 h3 => cases h with | read h => exact .inner (h _) h2 h3
  | @each l f k fs hp hw _ =>
    rw [hp] at pi
    simp only [State.put, same]
    cases pi with
    | top h => cases h with | each h h' => exact .inner (.ret _) h (.top h')
    | inner h h2 h3 => cases h with | each h h' => exact .inner (.ret _) h (.inner h' h2 h3)
  | @want l x k fs hp =>
    rw [hp] at pi
    simp only [State.put, same]
    cases pi with
    | top h => cases h with | add h => exact ⟨rfl, h⟩
    | inner h h2 h3 => cases h
  | @hold l x k fs hp hr hw =>
    rw [hp] at pi
    simp only [State.put, same]
    exact pi
  | @added l x k fs hp =>
    rw [hp] at pi
    simp only [State.put, same]
    obtain ⟨rfl, h⟩ := pi
    exact .top (h _)

theorem Readers.run {fair : Bool} {s : State} (t : Readers s) (is : List Nat) : Readers (run fair s is) :=
  inv_run (fun _ _ _ t hi h => Readers.move t hi h) is s t

theorem Readers.progress {s : State} (t : Readers s) {i : Nat} (h : Busy s i) : ∃ j s', step false s j = some s' := by
  refine Classical.byContradiction fun hn => ?_
  have none : ∀ j, step false s j = none := fun j => by
    cases e : step false s j with
    | none => rfl
    | some s' => exact absurd ⟨j, s', e⟩ hn
  have nowrite : ∀ l, s.writing l = true → False := fun l hw => by
    obtain ⟨j, hj⟩ := holder_moves (fair := false) hw
    rw [none j] at hj; cases hj
  have inner : ∀ j, j < s.n → (s.pc j).frames = [] ∨ (s.pc j).finished = true := fun j hj => by
    refine Classical.byContradiction fun hc => ?_
    simp only [not_or, Bool.not_eq_true] at hc
    obtain ⟨l, hl, hw | ⟨hw, _⟩ | ⟨hw, _⟩⟩ := stuck hj hc.2 (none j)
    · exact nowrite l hw
    · obtain ⟨x, k, fs, e⟩ := wants_iff.1 hw
      have := t j hj
      rw [e] at this hc
      exact hc.1 this.1
    · cases hw
  obtain ⟨l, hl, hw | ⟨_, hw⟩ | ⟨hw, _⟩⟩ := stuck h.1 h.2 (none i)
  · exact nowrite l hw
  · obtain ⟨j, hj, f, hf, _⟩ := reading_iff.1 hw
    rcases inner j hj with e | e
    · rw [e] at hf; cases hf
    · rw [busy_of_frames hf] at e; cases e
  · cases hw

/-! ### no thread runs forever -/

/-- what a step can do to the thread that takes it, whatever the others do -/
inductive Local : Pc → Pc → Prop
  | next {f : Frame} {x : Item} {rest : List Item} {fs : List Frame} : f.rest = x :: rest →
      Local (.run (f.f x) ({ f with seen := f.seen ++ [x], rest := rest } :: fs)) (.run (.ret true) (f :: fs))
  | close {more : Bool} {f : Frame} {fs : List Frame} : Local (.run f.k fs) (.run (.ret more) (f :: fs))
  | read {l : Lst} {k : ItemList → Prog} {fs : List Frame} (L : ItemList) : Local (.run (k L) fs) (.run (.read l k) fs)
  | each {l : Lst} {f : Item → Prog} {k : Prog} {fs : List Frame} (L : List Item) : Local (.run (.ret true) (⟨l, [], L, f, k⟩ :: fs)) (.run (.each l f k) fs)
  | want {l : Lst} {x : Item} {k : Bool → Prog} {fs : List Frame} : Local (.want l x k fs) (.run (.add l x k) fs)
  | hold {l : Lst} {x : Item} {k : Bool → Prog} {fs : List Frame} : Local (.hold l x k fs) (.want l x k fs)
  | added {l : Lst} {x : Item} {k : Bool → Prog} {fs : List Frame} (b : Bool) : Local (.run (k b) fs) (.hold l x k fs)

/-- all ways on from `.ret` with these frames end -/
def Returns (fs : List Frame) : Prop := ∀ b, Acc Local (.run (.ret b) fs)

theorem acc_prog (p : Prog) : ∀ fs, Returns fs → Acc Local (.run p fs) := by
  induction p with
  | ret b => exact fun fs h => h b
  | read l k ih =>
    refine fun fs h => ⟨_, fun q hq => ?_⟩
    cases hq
    exact ih _ fs h
  | add l x k ih =>
    refine fun fs h => ⟨_, fun q hq => ?_⟩
    cases hq
    refine ⟨_, fun q hq => ?_⟩
    cases hq
    refine ⟨_, fun q hq => ?_⟩
    cases hq
    exact ih _ fs h
  | each l f k ihf ihk =>
    refine fun fs h => ⟨_, fun q hq => ?_⟩
    cases hq with
    | each L =>
      -- with the items that are left
      have : ∀ (rest seen : List Item), Returns (⟨l, seen, rest, f, k⟩ :: fs) := by
        intro rest
        induction rest with
        | nil =>
          refine fun seen b => ⟨_, fun q hq => ?_⟩
          cases hq with
          | next e => cases e
          | close => exact ihk fs h
        | cons x rest ih =>
          refine fun seen b => ⟨_, fun q hq => ?_⟩
          cases hq with
          | next e =>
            cases e
            exact ihf x _ (ih _)
          | close => exact ihk fs h
      exact this L [] true

theorem acc_frames (fs : List Frame) : Returns fs := by
  induction fs with
  | nil =>
    intro b
    refine ⟨_, fun q hq => ?_⟩
    cases hq
  | cons f fs ih =>
    have : ∀ (rest seen : List Item), Returns (⟨f.l, seen, rest, f.f, f.k⟩ :: fs) := by
      intro rest
      induction rest with
      | nil =>
        refine fun seen b => ⟨_, fun q hq => ?_⟩
        cases hq with
        | next e => cases e
        | close => exact acc_prog _ fs ih
      | cons x rest ih' =>
        refine fun seen b => ⟨_, fun q hq => ?_⟩
        cases hq with
        | next e =>
          cases e
          exact acc_prog _ _ (ih' _)
        | close => exact acc_prog _ fs ih
    exact this f.rest f.seen

theorem acc_local (p : Pc) : Acc Local p := by
  cases p with
  | run p fs => exact acc_prog p fs (acc_frames fs)
  | want l x k fs =>
    refine ⟨_, fun q hq => ?_⟩
    cases hq
    refine ⟨_, fun q hq => ?_⟩
    cases hq
    exact acc_prog _ fs (acc_frames fs)
  | hold l x k fs =>
    refine ⟨_, fun q hq => ?_⟩
    cases hq
    exact acc_prog _ fs (acc_frames fs)

theorem Move.local {fair : Bool} {s s' : State} {i : Nat} (h : Move fair s i s') : Local (s'.pc i) (s.pc i) := by
  have same : ∀ (f : Nat → Pc) (p : Pc), upd f i p i = p := fun f p => upd_same ..
  cases h with
  | next hp hr => simp only [State.put, same]; rw [hp]; exact .next hr
  | close hp => simp only [State.put, same]; rw [hp]; exact .close
  | read hp => simp only [State.put, same]; rw [hp]; exact .read _
  | each hp => simp only [State.put, same]; rw [hp]; exact .each _
  | want hp => simp only [State.put, same]; rw [hp]; exact .want
  | hold hp => simp only [State.put, same]; rw [hp]; exact .hold
  | added hp => simp only [State.put, same]; rw [hp]; exact .added _

/-- one of the first `m` moves -/
def Some1 (m : Nat) (g' g : Nat → Pc) : Prop := ∃ i, i < m ∧ Local (g' i) (g i) ∧ ∀ j, j ≠ i → g' j = g j

theorem acc_some : ∀ (m : Nat) (g : Nat → Pc), Acc (Some1 m) g := by
  intro m
  induction m with
  | zero => exact fun g => ⟨_, fun g' ⟨i, hi, _⟩ => absurd hi (by omega)⟩
  | succ m ih =>
    have key : ∀ a, Acc Local a → ∀ g, Acc (Some1 m) g → g m = a → Acc (Some1 (m + 1)) g := by
      intro a ha
      induction ha with
      | intro a _ iha =>
        intro g hg
        induction hg with
        | intro g _ ihg =>
          intro e
          refine ⟨_, fun g' ⟨i, hi, hl, ho⟩ => ?_⟩
          rcases Nat.lt_succ_iff_lt_or_eq.1 hi with h | rfl
          · exact ihg g' ⟨i, h, hl, ho⟩ ((ho m (by omega)).trans e)
          · exact iha _ (e ▸ hl) g' (ih g') rfl
    exact fun g => key _ (acc_local _) g (ih g) rfl

theorem no_infinite {fair : Bool} (σ : Nat → State) (h : ∀ m, ∃ i, step fair (σ m) i = some (σ (m + 1))) : False := by
  have hn : ∀ m, (σ m).n = (σ 0).n := by
    intro m
    induction m with
    | zero => rfl
    | succ m ih =>
      obtain ⟨i, hi⟩ := h m
      rw [(step_move hi).2.n, ih]
  have : ∀ g, Acc (Some1 (σ 0).n) g → ∀ m, (σ m).pc = g → False := by
    intro g hg
    induction hg with
    | intro g _ ih =>
      intro m e
      obtain ⟨i, hi⟩ := h m
      obtain ⟨h1, h2⟩ := step_move hi
      exact ih _ (e ▸ ⟨i, by rw [← hn m]; exact h1, h2.local, fun j hj => h2.other hj⟩) (m + 1) rfl
  exact this _ (acc_some _ _) 0 rfl

end Rtti.EachRace
