import Verif.Spec.EachRace
import Verif.Lemmas.World
/-! Behind C75. -/
set_option autoImplicit false
namespace Rtti.EachRace

/-- the steps, one by one -/
inductive Move (fair : Bool) (s : State) (i : Nat) : State → Prop
  | next {f : Frame} {x : Item} {rest : List Item} {fs : List Frame} : s.pc i = .run (.ret true) (f :: fs) → f.rest = x :: rest →
      Move fair s i (s.put i (.run (f.f x) ({ f with seen := f.seen ++ [x], rest := rest } :: fs)))
  | close {more : Bool} {f : Frame} {fs : List Frame} : s.pc i = .run (.ret more) (f :: fs) → (more = true → f.rest = []) →
      Move fair s i { s.put i (.run f.k fs) with log := (⟨f.l, f.seen, more⟩, s.lists f.l) :: s.log }
  | read {l : Lst} {k : ItemList → Prog} {fs : List Frame} : s.pc i = .run (.read l k) fs → s.writing l = false → (fair = true → s.waiting l = false) →
      Move fair s i (s.put i (.run (k (s.lists l)) fs))
  | each {l : Lst} {f : Item → Prog} {k : Prog} {fs : List Frame} : s.pc i = .run (.each l f k) fs → s.writing l = false →
      (fair = true → s.waiting l = false) → Move fair s i (s.put i (.run (.ret true) (⟨l, [], (s.lists l).items, f, k⟩ :: fs)))
  | want {l : Lst} {x : Item} {k : Bool → Prog} {fs : List Frame} : s.pc i = .run (.add l x k) fs → Move fair s i (s.put i (.want l x k fs))
  | hold {l : Lst} {x : Item} {k : Bool → Prog} {fs : List Frame} : s.pc i = .want l x k fs → s.reading l = false → s.writing l = false →
      Move fair s i (s.put i (.hold l x k fs))
  | added {l : Lst} {x : Item} {k : Bool → Prog} {fs : List Frame} : s.pc i = .hold l x k fs →
      Move fair s i { s.put i (.run (k ((s.lists l).add (some x)).2) fs) with lists := upd s.lists l ((s.lists l).add (some x)).1 }

theorem step_move {fair : Bool} {s s' : State} {i : Nat} (h : step fair s i = some s') : i < s.n ∧ Move fair s i s' := by
  unfold step at h
  split at h
  · cases h
  rename_i hi
  refine ⟨by omega, ?_⟩
  split at h
  · cases h
  · rename_i hp
    split at h
    · rename_i hr
      cases h
      exact .next hp hr
    · rename_i more rest hn
      cases h
      refine .close hp fun e => ?_
      subst e
      generalize Frame.rest _ = r at hn
      cases r with
      | nil => rfl
      | cons => exact absurd rfl (hn _ _ rfl)
  · rename_i hp
    split at h
    · cases h
    · rename_i hw
      cases h
      simp only [Bool.or_eq_true, Bool.and_eq_true, not_or, not_and, Bool.not_eq_true] at hw
      exact .read hp hw.1 hw.2
  · rename_i hp
    split at h
    · cases h
    · rename_i hw
      cases h
      simp only [Bool.or_eq_true, Bool.and_eq_true, not_or, not_and, Bool.not_eq_true] at hw
      exact .each hp hw.1 hw.2
  · rename_i hp; cases h; exact .want hp
  · rename_i hp
    split at h
    · cases h
    · rename_i hw
      cases h
      simp only [Bool.or_eq_true, not_or, Bool.not_eq_true] at hw
      exact .hold hp hw.1 hw.2
  · rename_i hp; cases h; exact .added hp

theorem Move.n {fair : Bool} {s s' : State} {i : Nat} (h : Move fair s i s') : s'.n = s.n := by cases h <;> rfl

theorem Move.other {fair : Bool} {s s' : State} {i j : Nat} (h : Move fair s i s') (hj : j ≠ i) : s'.pc j = s.pc j := by
  cases h <;> exact upd_ne _ _ hj

theorem reading_iff {s : State} {l : Lst} : s.reading l = true ↔ ∃ j, j < s.n ∧ ∃ f ∈ (s.pc j).frames, f.l = l := by
  simp [State.reading]

theorem writing_iff {s : State} {l : Lst} : s.writing l = true ↔ ∃ j, j < s.n ∧ (s.pc j).holds l = true := by
  simp [State.writing]

theorem waiting_iff {s : State} {l : Lst} : s.waiting l = true ↔ ∃ j, j < s.n ∧ (s.pc j).wants l = true := by
  simp [State.waiting]

theorem not_reading {s : State} {l : Lst} (h : s.reading l = false) {j : Nat} (hj : j < s.n) {f : Frame} (hf : f ∈ (s.pc j).frames) : f.l ≠ l := by
  intro e
  have := reading_iff.2 ⟨j, hj, f, hf, e⟩
  rw [h] at this; cases this

theorem not_writing {s : State} {l : Lst} (h : s.writing l = false) {j : Nat} (hj : j < s.n) : (s.pc j).holds l = false := by
  cases e : (s.pc j).holds l with
  | false => rfl
  | true =>
    have := writing_iff.2 ⟨j, hj, e⟩
    rw [h] at this; cases this

theorem holds_iff {p : Pc} {l : Lst} : p.holds l = true ↔ ∃ x k fs, p = .hold l x k fs := by
  cases p with
  | hold l' x k fs =>
    simp only [Pc.holds, beq_iff_eq]
    exact ⟨fun e => ⟨x, k, fs, by rw [e]⟩, fun ⟨_, _, _, e⟩ => by cases e; rfl⟩
  | _ => simp [Pc.holds]

theorem wants_iff {p : Pc} {l : Lst} : p.wants l = true ↔ ∃ x k fs, p = .want l x k fs := by
  cases p with
  | want l' x k fs =>
    simp only [Pc.wants, beq_iff_eq]
    exact ⟨fun e => ⟨x, k, fs, by rw [e]⟩, fun ⟨_, _, _, e⟩ => by cases e; rfl⟩
  | _ => simp [Pc.wants]

/-! ### what holds for all programs -/

theorem add_prefix (L : ItemList) (x : Item) : L.items <+: (L.add (some x)).1.items := by
  unfold ItemList.add
  dsimp only
  split
  · exact List.prefix_append ..
  · exact List.prefix_refl _

/-- every running enumeration has called its function; only the innermost may be before its first item -/
def Called : Pc → Prop
  | .run p (f :: fs) => (f.seen = [] → p = .ret true) ∧ ∀ g ∈ fs, g.seen ≠ []
  | .run _ [] => True
  | .want _ _ _ fs => ∀ g ∈ fs, g.seen ≠ []
  | .hold _ _ _ fs => ∀ g ∈ fs, g.seen ≠ []

structure Ok (s : State) : Prop where
  frame : ∀ i, i < s.n → ∀ f ∈ (s.pc i).frames, f.seen ++ f.rest = (s.lists f.l).items
  excl : ∀ i j l, i < s.n → j < s.n → (s.pc i).holds l = true → ∀ f ∈ (s.pc j).frames, f.l ≠ l
  one : ∀ i j l, i < s.n → j < s.n → (s.pc i).holds l = true → (s.pc j).holds l = true → i = j
  called : ∀ i, i < s.n → Called (s.pc i)
  log : ∀ e ∈ s.log, e.1.seen <+: e.2.items ∧ (e.1.more = true → e.1.seen = e.2.items) ∧ (e.1.more = false → e.1.seen ≠ []) ∧
    e.2.items <+: (s.lists e.1.l).items

theorem Ok.init (n : Nat) (programs : Nat → Prog) : Ok (init n programs) where
  frame := by intro i _ f hf; cases hf
  excl := by intro i j l _ _ h; cases h
  one := by intro i j l _ _ h; cases h
  called := by intro i _; trivial
  log := by intro e h; cases h

theorem Called.seen {p : Prog} {f : Frame} {fs : List Frame} (h : Called (.run p (f :: fs))) (hp : p ≠ .ret true) : ∀ g ∈ f :: fs, g.seen ≠ [] := by
  intro g hg
  rcases List.mem_cons.1 hg with rfl | hg
  · exact fun e => hp (h.1 e)
  · exact h.2 g hg

theorem Called.run_of {p : Prog} {fs : List Frame} (h : ∀ g ∈ fs, g.seen ≠ []) : Called (.run p fs) := by
  cases fs with
  | nil => trivial
  | cons f fs => exact ⟨fun e => absurd e (h f (by simp)), fun g hg => h g (by simp [hg])⟩

theorem Called.all {p : Prog} {fs : List Frame} (h : Called (.run p fs)) (hp : p ≠ .ret true) : ∀ g ∈ fs, g.seen ≠ [] := by
  cases fs with
  | nil => intro g hg; cases hg
  | cons f fs => exact h.seen hp

/-- what a move does to the frames and locks of the thread itself -/
theorem Ok.move {fair : Bool} {s s' : State} {i : Nat} (o : Ok s) (hi : i < s.n) (h : Move fair s i s') : Ok s' := by
  -- frames of all threads in s'
  have pcs : ∀ j, j = i ∨ s'.pc j = s.pc j := fun j => by
    by_cases e : j = i
    · exact .inl e
    · exact .inr (h.other e)
  have hn := h.n
  cases h with
  | @next f x rest fs hp hr =>
    have pi : ∀ p : Pc, upd s.pc i p i = p := fun p => upd_same ..
    refine ⟨?_, ?_, ?_, ?_, o.log⟩
    · intro j hj g hg
      rcases pcs j with rfl | e
      · simp only [State.put, pi, Pc.frames, List.mem_cons] at hg
        rcases hg with rfl | hg
        · have := o.frame j hi f (by rw [hp]; simp [Pc.frames])
          simp only [State.put]
          rw [hr] at this
          simpa using this
        · exact o.frame j hi g (by rw [hp]; simp [Pc.frames, hg])
      · rw [e] at hg; exact o.frame j hj g hg
    · intro a b l ha hb hh g hg
      have ha' : (s.pc a).holds l = true := by
        rcases pcs a with rfl | e
        · simp [State.put, Pc.holds] at hh
        · rwa [e] at hh
      rcases pcs b with rfl | e
      · simp only [State.put, pi, Pc.frames, List.mem_cons] at hg
        rcases hg with rfl | hg
        · exact o.excl a b l ha hi ha' f (by rw [hp]; simp [Pc.frames])
        · exact o.excl a b l ha hi ha' g (by rw [hp]; simp [Pc.frames, hg])
      · rw [e] at hg; exact o.excl a b l ha hb ha' g hg
    · intro a b l ha hb hh hh'
      rcases pcs a with rfl | e
      · simp [State.put, Pc.holds] at hh
      · rcases pcs b with rfl | e'
        · simp [State.put, Pc.holds] at hh'
        · rw [e] at hh; rw [e'] at hh'; exact o.one a b l ha hb hh hh'
    · intro j hj
      rcases pcs j with rfl | e
      · have := o.called j hi
        rw [hp] at this
        simp only [State.put, pi]
        exact ⟨fun e => by simp at e, this.2⟩
      · rw [e]; exact o.called j hj
  | @close more f fs hp hm =>
    have pi : ∀ p : Pc, upd s.pc i p i = p := fun p => upd_same ..
    have hf := o.frame i hi f (by rw [hp]; simp [Pc.frames])
    have hc := o.called i hi
    rw [hp] at hc
    refine ⟨?_, ?_, ?_, ?_, ?_⟩
    · intro j hj g hg
      rcases pcs j with rfl | e
      · simp only [State.put, pi, Pc.frames] at hg
        exact o.frame j hi g (by rw [hp]; simp [Pc.frames, hg])
      · rw [e] at hg; exact o.frame j hj g hg
    · intro a b l ha hb hh g hg
      have ha' : (s.pc a).holds l = true := by
        rcases pcs a with rfl | e
        · simp [State.put, Pc.holds] at hh
        · rwa [e] at hh
      rcases pcs b with rfl | e
      · simp only [State.put, pi, Pc.frames] at hg
        exact o.excl a b l ha hi ha' g (by rw [hp]; simp [Pc.frames, hg])
      · rw [e] at hg; exact o.excl a b l ha hb ha' g hg
    · intro a b l ha hb hh hh'
      rcases pcs a with rfl | e
      · simp [State.put, Pc.holds] at hh
      · rcases pcs b with rfl | e'
        · simp [State.put, Pc.holds] at hh'
        · rw [e] at hh; rw [e'] at hh'; exact o.one a b l ha hb hh hh'
    · intro j hj
      rcases pcs j with rfl | e
      · simp only [State.put, pi]
        exact Called.run_of hc.2
      · rw [e]; exact o.called j hj
    · intro e he
      rcases List.mem_cons.1 he with rfl | he
      · refine ⟨⟨_, hf⟩, fun hmore => ?_, fun hmore e0 => ?_, List.prefix_refl _⟩
        · rw [hm hmore] at hf; simpa using hf
        · have := hc.1 e0
          have hmore : more = false := hmore
          rw [hmore] at this; cases this
      · exact o.log e he
  | @read l k fs hp hw _ =>
    have pi : ∀ p : Pc, upd s.pc i p i = p := fun p => upd_same ..
    refine ⟨?_, ?_, ?_, ?_, o.log⟩
    · intro j hj g hg
      rcases pcs j with rfl | e
      · simp only [State.put, pi, Pc.frames] at hg
        exact o.frame j hi g (by rw [hp]; simp [Pc.frames, hg])
      · rw [e] at hg; exact o.frame j hj g hg
    · intro a b l ha hb hh g hg
      have ha' : (s.pc a).holds l = true := by
        rcases pcs a with rfl | e
        · simp [State.put, Pc.holds] at hh
        · rwa [e] at hh
      rcases pcs b with rfl | e
      · simp only [State.put, pi, Pc.frames] at hg
        exact o.excl a b l ha hi ha' g (by rw [hp]; simp [Pc.frames, hg])
      · rw [e] at hg; exact o.excl a b l ha hb ha' g hg
    · intro a b l ha hb hh hh'
      rcases pcs a with rfl | e
      · simp [State.put, Pc.holds] at hh
      · rcases pcs b with rfl | e'
        · simp [State.put, Pc.holds] at hh'
        · rw [e] at hh; rw [e'] at hh'; exact o.one a b l ha hb hh hh'
    · intro j hj
      rcases pcs j with rfl | e
      · simp only [State.put, pi]
        have := o.called j hi
        rw [hp] at this
        exact Called.run_of (this.all (by simp))
      · rw [e]; exact o.called j hj
  | @each l f k fs hp hw _ =>
    have pi : ∀ p : Pc, upd s.pc i p i = p := fun p => upd_same ..
    refine ⟨?_, ?_, ?_, ?_, o.log⟩
    · intro j hj g hg
      rcases pcs j with rfl | e
      · simp only [State.put, pi, Pc.frames, List.mem_cons] at hg
        rcases hg with rfl | hg
        · simp [State.put]
        · exact o.frame j hi g (by rw [hp]; simp [Pc.frames, hg])
      · rw [e] at hg; exact o.frame j hj g hg
    · intro a b l' ha hb hh g hg
      have ha' : (s.pc a).holds l' = true := by
        rcases pcs a with rfl | e
        · simp [State.put, Pc.holds] at hh
        · rwa [e] at hh
      rcases pcs b with rfl | e
      · simp only [State.put, pi, Pc.frames, List.mem_cons] at hg
        rcases hg with rfl | hg
        · rintro e
          have e : l = l' := e
          subst e
          rw [not_writing hw ha] at ha'; cases ha'
        · exact o.excl a b l' ha hi ha' g (by rw [hp]; simp [Pc.frames, hg])
      · rw [e] at hg; exact o.excl a b l' ha hb ha' g hg
    · intro a b l ha hb hh hh'
      rcases pcs a with rfl | e
      · simp [State.put, Pc.holds] at hh
      · rcases pcs b with rfl | e'
        · simp [State.put, Pc.holds] at hh'
        · rw [e] at hh; rw [e'] at hh'; exact o.one a b l ha hb hh hh'
    · intro j hj
      rcases pcs j with rfl | e
      · simp only [State.put, pi]
        have := o.called j hi
        rw [hp] at this
        exact ⟨fun _ => rfl, this.all (by simp)⟩
      · rw [e]; exact o.called j hj
  | @want l x k fs hp =>
    have pi : ∀ p : Pc, upd s.pc i p i = p := fun p => upd_same ..
    refine ⟨?_, ?_, ?_, ?_, o.log⟩
    · intro j hj g hg
      rcases pcs j with rfl | e
      · simp only [State.put, pi, Pc.frames] at hg
        exact o.frame j hi g (by rw [hp]; simp [Pc.frames, hg])
      · rw [e] at hg; exact o.frame j hj g hg
    · intro a b l ha hb hh g hg
      have ha' : (s.pc a).holds l = true := by
        rcases pcs a with rfl | e
        · simp [State.put, Pc.holds] at hh
        · rwa [e] at hh
      rcases pcs b with rfl | e
      · simp only [State.put, pi, Pc.frames] at hg
        exact o.excl a b l ha hi ha' g (by rw [hp]; simp [Pc.frames, hg])
      · rw [e] at hg; exact o.excl a b l ha hb ha' g hg
    · intro a b l ha hb hh hh'
      rcases pcs a with rfl | e
      · simp [State.put, Pc.holds] at hh
      · rcases pcs b with rfl | e'
        · simp [State.put, Pc.holds] at hh'
        · rw [e] at hh; rw [e'] at hh'; exact o.one a b l ha hb hh hh'
    · intro j hj
      rcases pcs j with rfl | e
      · simp only [State.put, pi]
        have := o.called j hi
        rw [hp] at this
        exact this.all (by simp)
      · rw [e]; exact o.called j hj
  | @hold l x k fs hp hr hw =>
    have pi : ∀ p : Pc, upd s.pc i p i = p := fun p => upd_same ..
    refine ⟨?_, ?_, ?_, ?_, o.log⟩
    · intro j hj g hg
      rcases pcs j with rfl | e
      · simp only [State.put, pi, Pc.frames] at hg
        exact o.frame j hi g (by rw [hp]; simp [Pc.frames, hg])
      · rw [e] at hg; exact o.frame j hj g hg
    · intro a b l' ha hb hh g hg
      have hg' : g ∈ (s.pc b).frames := by
        rcases pcs b with rfl | e
        · simp only [State.put, pi, Pc.frames] at hg
          rw [hp]; exact hg
        · rwa [e] at hg
      rcases pcs a with rfl | e
      · simp only [State.put, pi, Pc.holds, beq_iff_eq] at hh
        subst hh
        exact not_reading hr hb hg'
      · rw [e] at hh
        exact o.excl a b l' ha hb hh g hg'
    · intro a b l' ha hb hh hh'
      rcases pcs a with rfl | e
      · rcases pcs b with e' | e'
        · exact e'.symm
        · simp only [State.put, pi, Pc.holds, beq_iff_eq] at hh
          subst hh
          rw [e', not_writing hw hb] at hh'; cases hh'
      · rcases pcs b with rfl | e'
        · simp only [State.put, pi, Pc.holds, beq_iff_eq] at hh'
          subst hh'
          rw [e, not_writing hw ha] at hh; cases hh
        · rw [e] at hh; rw [e'] at hh'; exact o.one a b l' ha hb hh hh'
    · intro j hj
      rcases pcs j with rfl | e
      · simp only [State.put, pi]
        have := o.called j hi
        rw [hp] at this
        exact this
      · rw [e]; exact o.called j hj
  | @added l x k fs hp =>
    have pi : ∀ p : Pc, upd s.pc i p i = p := fun p => upd_same ..
    have hh0 : (s.pc i).holds l = true := by rw [hp]; simp [Pc.holds]
    have hfr : ∀ j g, j < s.n → g ∈ (s.pc j).frames → upd s.lists l ((s.lists l).add (some x)).1 g.l = s.lists g.l := by
      intro j g hj hg
      exact upd_ne _ _ (o.excl i j l hi hj hh0 g hg)
    refine ⟨?_, ?_, ?_, ?_, ?_⟩
    · intro j hj g hg
      have hg' : g ∈ (s.pc j).frames := by
        rcases pcs j with rfl | e
        · simp only [State.put, pi, Pc.frames] at hg
          rw [hp]; exact hg
        · rwa [e] at hg
      show _ = (upd s.lists l ((s.lists l).add (some x)).1 g.l).items
      rw [hfr j g hj hg']
      exact o.frame j hj g hg'
    · intro a b l' ha hb hh g hg
      have hg' : g ∈ (s.pc b).frames := by
        rcases pcs b with rfl | e
        · simp only [State.put, pi, Pc.frames] at hg
          rw [hp]; exact hg
        · rwa [e] at hg
      rcases pcs a with rfl | e
      · simp [State.put, Pc.holds] at hh
      · rw [e] at hh
        exact o.excl a b l' ha hb hh g hg'
    · intro a b l ha hb hh hh'
      rcases pcs a with rfl | e
      · simp [State.put, Pc.holds] at hh
      · rcases pcs b with rfl | e'
        · simp [State.put, Pc.holds] at hh'
        · rw [e] at hh; rw [e'] at hh'; exact o.one a b l ha hb hh hh'
    · intro j hj
      rcases pcs j with rfl | e
      · simp only [State.put, pi]
        have := o.called j hi
        rw [hp] at this
        exact Called.run_of this
      · rw [e]; exact o.called j hj
    · intro e he
      obtain ⟨h1, h2, h3, h4⟩ := o.log e he
      refine ⟨h1, h2, h3, h4.trans ?_⟩
      show _ <+: (upd s.lists l ((s.lists l).add (some x)).1 e.1.l).items
      by_cases e' : e.1.l = l
      · rw [e', upd_same]; exact add_prefix _ _
      · rw [upd_ne _ _ e']; exact List.prefix_refl _

theorem inv_run {fair : Bool} {P : State → Prop} (hstep : ∀ s s' i, P s → i < s.n → Move fair s i s' → P s') :
    ∀ (is : List Nat) (s : State), P s → P (run fair s is) := by
  intro is
  induction is with
  | nil => exact fun s h => h
  | cons i is ih =>
    intro s h
    refine ih _ ?_
    cases e : step fair s i with
    | none => exact h
    | some s' => exact hstep s s' i h (step_move e).1 (step_move e).2

theorem Ok.run {fair : Bool} {s : State} (o : Ok s) (is : List Nat) : Ok (run fair s is) :=
  inv_run (fun _ _ _ o hi h => o.move hi h) is s o

/-- a running enumeration keeps its list as it is -/
theorem Ok.lists_kept {fair : Bool} {s s' : State} {i j : Nat} (o : Ok s) (hi : i < s.n) (hj : j < s.n) {f : Frame} (hf : f ∈ (s.pc i).frames)
    (h : Move fair s j s') : s'.lists f.l = s.lists f.l := by
  cases h with
  | @added l x k fs hp => exact upd_ne _ _ (o.excl j i l hj hi (by rw [hp]; simp [Pc.holds]) f hf)
  | _ => rfl

theorem Move.grows {fair : Bool} {s s' : State} {i : Nat} (h : Move fair s i s') (l : Lst) : (s.lists l).items <+: (s'.lists l).items := by
  cases h with
  | @added l' x k fs hp =>
    show _ <+: (upd s.lists l' ((s.lists l').add (some x)).1 l).items
    by_cases e : l = l'
    · subst e; rw [upd_same]; exact add_prefix _ _
    · rw [upd_ne _ _ e]; exact List.prefix_refl _
  | _ => exact List.prefix_refl _

end Rtti.EachRace
