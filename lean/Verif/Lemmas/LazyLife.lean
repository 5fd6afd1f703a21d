import Verif.Lemmas.Lazy
import Verif.Lemmas.World
import Verif.Spec.Lazy
set_option autoImplicit false
namespace Rtti.Lazy
open LM Spec

/-- the life of the definitions of one container -/
inductive Life (p : Nat) : List Event → Option (List Cmd) → Bool → Prop
  | nil : Life p [] none false
  | installed {l : List Event} (b : List Cmd) : Life p l none false → Life p (l ++ [.installed p b]) (some b) false
  | started {l : List Event} {b : List Cmd} : Life p l (some b) false → Life p (l ++ [.started p b]) (some b) true
  | finished {l : List Event} {b : List Cmd} : Life p l (some b) true → Life p (l ++ [.finished p]) none false
  | installed' {l : List Event} {o : Option (List Cmd)} {r : Bool} {q : Nat} (b : List Cmd) : q ≠ p → Life p l o r →
      Life p (l ++ [.installed q b]) o r
  | started' {l : List Event} {o : Option (List Cmd)} {r : Bool} {q : Nat} (b : List Cmd) : q ≠ p → Life p l o r →
      Life p (l ++ [.started q b]) o r
  | finished' {l : List Event} {o : Option (List Cmd)} {r : Bool} {q : Nat} : q ≠ p → Life p l o r →
      Life p (l ++ [.finished q]) o r

theorem Life.idle {p : Nat} {l : List Event} {r : Bool} (h : Life p l none r) : r = false := by
  generalize hx : (none : Option (List Cmd)) = o at h
  induction h <;> simp_all

def lastUnrun (o : Option (List Cmd)) (r : Bool) : List (List Cmd) := if r then [] else o.toList

theorem installedFor_append (p : Nat) (l l' : List Event) :
    installedFor p (l ++ l') = installedFor p l ++ installedFor p l' := by
  induction l with
  | nil => rfl
  | cons x l ih => cases x <;> simp only [List.cons_append, installedFor, ih] <;> split <;> simp

theorem startedFor_append (p : Nat) (l l' : List Event) :
    startedFor p (l ++ l') = startedFor p l ++ startedFor p l' := by
  induction l with
  | nil => rfl
  | cons x l ih => cases x <;> simp only [List.cons_append, startedFor, ih] <;> split <;> simp

theorem finishedFor_append (p : Nat) (l l' : List Event) :
    finishedFor p (l ++ l') = finishedFor p l + finishedFor p l' := by
  induction l with
  | nil => simp [finishedFor]
  | cons x l ih => cases x <;> simp only [List.cons_append, finishedFor, ih] <;> split <;> omega

theorem Life.account {p : Nat} {l : List Event} {o : Option (List Cmd)} {r : Bool} (h : Life p l o r) :
    installedFor p l = startedFor p l ++ lastUnrun o r ∧ (startedFor p l).length = finishedFor p l + (if r then 1 else 0) := by
  induction h with
  | nil => simp [installedFor, startedFor, finishedFor, lastUnrun]
  | installed b h ih | started h ih | finished h ih =>
    simp_all [installedFor_append, startedFor_append, finishedFor_append, installedFor, startedFor, finishedFor, lastUnrun]
  | installed' b hq h ih | started' b hq h ih | finished' hq h ih =>
    simp_all [installedFor_append, startedFor_append, finishedFor_append, installedFor, startedFor, finishedFor]

def Alive (s : LW) : Prop := ∀ p, Life p s.log (s.pending p) (s.running p)

/-- what every computation keeps -/
structure Keeps (s s' : LW) : Prop where
  alive : Alive s → Alive s'
  running : s'.running = s.running
  kept : Alive s → ∀ p, s.running p = true → s'.pending p = s.pending p
  iter : s'.iter = s.iter

theorem keeps_look : QLook Keeps where
  refl _ := ⟨id, rfl, fun _ _ _ => rfl, rfl⟩
  trans h h' := ⟨fun i => h'.alive (h.alive i), h'.running.trans h.running,
    fun i p hp => (h'.kept (h.alive i) p (by rw [h.running]; exact hp)).trans (h.kept i p hp), h'.iter.trans h.iter⟩
  iter h := ⟨h.alive, h.running, h.kept, rfl⟩

theorem keeps_change {A : Type} (f : World → World × Res A) : (io Keeps keeps_look).K (change f) (change f) :=
  fun s => ⟨fun h => h, rfl, fun _ _ _ => rfl, rfl⟩

theorem keeps_install (p : Nat) (b : List Cmd) : (io Keeps keeps_look).K (install p b) (install p b) := by
  intro s
  unfold install
  split
  · exact keeps_look.refl s
  · split
    · exact keeps_look.refl s
    · rename_i hp
      refine ⟨fun h q => ?_, rfl, fun h q hq => ?_, rfl⟩
      · have hq := h q
        by_cases e : q = p
        · subst e
          rw [hp] at hq
          have hr := hq.idle
          rw [hr] at hq
          have := Life.installed b hq
          simpa [upd, hr] using this
        · have := Life.installed' b (Ne.symm e) hq
          simpa [upd, e] using this
      · by_cases e : q = p
        · subst e
          have := h q
          rw [hp] at this
          rw [this.idle] at hq; simp at hq
        · simp [upd, e]

theorem keeps_setAttr (p : Nat) (n : Str) (v : Nat) : (io Keeps keeps_look).K (setAttr p n v) (setAttr p n v) := by
  intro s
  unfold setAttr
  split
  · exact ⟨fun h => h, rfl, fun _ _ _ => rfl, rfl⟩
  · exact keeps_look.refl s

theorem keeps_op {chk : Nat → LM Unit} (hc : ∀ p, (io Keeps keeps_look).K (chk p) (chk p)) (fuel : Nat) (o : World.Op) :
    (io Keeps keeps_look).K (Lazy.op chk fuel o) (Lazy.op chk fuel o) := by
  refine (io Keeps keeps_look).op hc (.inl rfl) o (fun _ _ => keeps_change _) (fun _ _ _ _ _ => keeps_change _)
    (fun _ _ _ _ => keeps_change _) ?_
  rintro p t c rfl s
  unfold Lazy.op
  dsimp only
  split
  · exact keeps_look.refl s
  · exact keeps_change _ s

theorem keeps_execs {chk : Nat → LM Unit} (hc : ∀ p, (io Keeps keeps_look).K (chk p) (chk p)) (fuel : Nat) (cs : List Cmd) :
    (io Keeps keeps_look).K (execs chk fuel cs) (execs chk fuel cs) :=
  (io Keeps keeps_look).execs (P := fun _ => True)
    ((io Keeps keeps_look).leaf hc (.inl rfl) (fun o _ => keeps_op hc fuel o) (fun _ _ _ _ => keeps_setAttr _ _ _)
      (fun _ _ _ => keeps_install _ _)) cs (Cmds.all_true cs)

/-- the state in which a callback starts -/
def begin_ (s : LW) (p : Nat) (body : List Cmd) : LW :=
  { s with running := upd s.running p true, log := s.log ++ [.started p body] }
/-- what the scope guard does -/
def end_ (s : LW) (p : Nat) : LW :=
  { s with pending := upd s.pending p none, running := upd s.running p false, log := s.log ++ [.finished p] }

theorem check_run {fuel p : Nat} {s : LW} {body : List Cmd} (hp : s.pending p = some body) (hr : s.running p = false) :
    check (fuel + 1) p s =
      (end_ (execs (check fuel) fuel body (begin_ s p body)).1 p, outcome (execs (check fuel) fuel body (begin_ s p body)).2) := by
  unfold check
  rw [hp]
  simp only [hr, Bool.false_eq_true, if_false]
  rfl

theorem check_idle {fuel p : Nat} {s : LW} (h : s.pending p = none ∨ s.running p = true) : check (fuel + 1) p s = (s, .val ()) := by
  unfold check
  rcases h with h | h
  · rw [h]
  · cases e : s.pending p with
    | none => rfl
    | some b => simp only [h, if_true]

theorem begin_keeps {s : LW} {p : Nat} {body : List Cmd} (h : Alive s) (hp : s.pending p = some body) (hr : s.running p = false) :
    Alive (begin_ s p body) := by
  intro q
  have hq := h q
  by_cases e : q = p
  · subst e
    rw [hp, hr] at hq
    have := hq.started
    simpa [begin_, upd, hp] using this
  · have := Life.started' body (Ne.symm e) hq
    simpa [begin_, upd, e] using this

theorem end_keeps {s : LW} {p : Nat} {body : List Cmd} (h : Alive s) (hp : s.pending p = some body) (hr : s.running p = true) :
    Alive (end_ s p) := by
  intro q
  have hq := h q
  by_cases e : q = p
  · subst e
    rw [hp, hr] at hq
    have := hq.finished
    simpa [end_, upd] using this
  · have := Life.finished' (Ne.symm e) hq
    simpa [end_, upd, e] using this

theorem keeps_check (fuel p : Nat) : (io Keeps keeps_look).K (check fuel p) (check fuel p) := by
  induction fuel generalizing p with
  | zero => exact fun s => keeps_look.refl s
  | succ fuel ih =>
    intro s
    cases hp : s.pending p with
    | none => rw [check_idle (.inl hp)]; exact keeps_look.refl s
    | some body =>
      cases hr : s.running p with
      | true => rw [check_idle (.inr hr)]; exact keeps_look.refl s
      | false =>
        rw [check_run hp hr]
        have hk := keeps_execs ih fuel body (begin_ s p body)
        generalize execs (check fuel) fuel body (begin_ s p body) = r at hk
        have hrun : r.1.running = upd s.running p true := hk.running
        have hpend : Alive s → r.1.pending p = some body := fun h => by
          rw [hk.kept (begin_keeps h hp hr) p (by simp [begin_, upd])]; exact hp
        refine ⟨fun h => end_keeps (hk.alive (begin_keeps h hp hr)) (hpend h) (by rw [hrun]; simp [upd]), ?_, fun h q hq => ?_, ?_⟩
        · funext q
          simp only [end_, hrun, upd]
          split
          · rename_i e; rw [e, hr]
          · rfl
        · have e : q ≠ p := by rintro rfl; rw [hr] at hq; simp at hq
          have := hk.kept (begin_keeps h hp hr) q (by simp [begin_, upd, hq])
          simpa [end_, upd, e, begin_] using this
        · exact hk.iter

theorem keeps_run (fuel : Nat) (cs : List Cmd) (s : LW) : Keeps s (run fuel cs s).1 :=
  keeps_execs (keeps_check fuel) fuel cs s

theorem alive_init : Alive init := fun _ => .nil

/-- after a check nothing is pending -/
theorem check_done {fuel p : Nat} {s : LW} (hr : s.running p = false) :
    (check (fuel + 1) p s).1.pending p = none := by
  cases hp : s.pending p with
  | none => rw [check_idle (.inl hp)]; exact hp
  | some body => rw [check_run hp hr]; simp [end_, upd]

end Rtti.Lazy
