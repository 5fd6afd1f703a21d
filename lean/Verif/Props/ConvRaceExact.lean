import Verif.Props.ConvRace
/-! C72, exactly: which function a registration uses. -/
set_option autoImplicit false
namespace Rtti.Props
open Rtti Spec ConvRace

/-- the thread moved at `is = p ++ i :: q` stands before the static of `k`, `f` with the function `w`, and before that no thread
    was moved while it stood there -/
def FirstThere (programs : Nat → List Req) (k f : Nat) (is : List Nat) (i w : Nat) : Prop :=
  ∃ p q, is = p ++ i :: q ∧ ((run (init programs) p).threads i).pc = .guard k f w ∧
    ∀ p' j q' u, p = p' ++ j :: q' → ((run (init programs) p').threads j).pc ≠ .guard k f u

private theorem run_snoc (s : State) (is : List Nat) (j : Nat) :
    run s (is ++ [j]) = (step (run s is) j).getD (run s is) := by
  induction is generalizing s with
  | nil => rfl
  | cons a is ih => exact ih _

private def Moved (s s' : State) (k f j : Nat) : Prop :=
    (s.static k f = .fresh → (∀ u, (s.threads j).pc ≠ .guard k f u) → s'.static k f = .fresh) ∧
    (∀ u, s.static k f = .fresh → (s.threads j).pc = .guard k f u → s'.static k f = .busy j ∧ (s'.threads j).pc = .make k f u) ∧
    (∀ i w, s.static k f = .busy i → (s.threads i).pc = .make k f w →
      s'.static k f = .made w ∨ s'.static k f = .busy i ∧ (s'.threads i).pc = .make k f w) ∧
    (∀ w, s.static k f = .made w → s'.static k f = .made w)

private theorem static_step {programs : Nat → List Req} {s : State} (o : Ok programs s) (k f j : Nat) :
    Moved s ((step s j).getD s) k f j := by
  have hp := o.pc j
  have upd2 : ∀ (a b : Nat) (x : Static), (a = k ∧ b = f) ∨ upd s.static a (upd (s.static a) b x) k f = s.static k f := by
    intro a b x
    by_cases ha : k = a
    · subst ha
      by_cases hb : f = b
      · exact .inl ⟨rfl, hb.symm⟩
      · right; simp [upd, hb]
    · right; simp [upd, ha]
  generalize hs' : (step s j).getD s = s'
  have triv : s'.static k f = s.static k f → (∀ i, i ≠ j → s'.threads i = s.threads i) →
      (∀ w, (s.threads j).pc ≠ .make k f w) → (∀ u, (s.threads j).pc = .guard k f u → s.static k f ≠ .fresh) → Moved s s' k f j := by
    intro e1 e2 e3 e4
    refine ⟨fun h _ => e1 ▸ h, fun u h hg => absurd h (e4 u hg), fun i w h hm => ?_, fun w h => e1 ▸ h⟩
    by_cases hij : i = j
    · subst hij; exact absurd hm (e3 w)
    · exact .inr ⟨e1 ▸ h, by rw [e2 i hij]; exact hm⟩
  have hth : ∀ i, i ≠ j → s'.threads i = s.threads i := by
    intro i hi
    rw [← hs']; simp only [step]
    repeat' split
    all_goals simp [State.put, State.ret, upd, hi]
  cases epc : (s.threads j).pc with
  | guard a b v =>
    rw [epc] at hp
    cases es : s.static a b with
    | fresh =>
      have hs : s' = { s.put j (.make a b v) with static := upd s.static a (upd (s.static a) b (.busy j)) } := by
        rw [← hs']; simp only [step, epc, es]; rfl
      by_cases hab : a = k ∧ b = f
      · obtain ⟨rfl, rfl⟩ := hab
        refine ⟨fun _ h => absurd epc (h v), fun u _ hu => ?_, fun i w h => ?_, fun w h => ?_⟩
        · rw [epc] at hu; cases hu; rw [hs]; simp [State.put, upd]
        · rw [es] at h; cases h
        · rw [es] at h; cases h
      · refine triv ?_ hth (by simp [epc]) (fun u hu => ?_)
        · rw [hs]; exact (upd2 a b _).resolve_left hab
        · rw [epc] at hu; cases hu; exact absurd ⟨rfl, rfl⟩ hab
    | busy x =>
      have hs : s' = s := by rw [← hs']; simp only [step, epc, es]; rfl
      refine triv (by rw [hs]) hth (by simp [epc]) (fun u hu => ?_)
      rw [epc] at hu; cases hu; rw [es]; simp
    | made x =>
      have hs : s' = s.put j (.add a b v) := by rw [← hs']; simp only [step, epc, es]; rfl
      refine triv (by rw [hs]; rfl) hth (by simp [epc]) (fun u hu => ?_)
      rw [epc] at hu; cases hu; rw [es]; simp
  | make a b v =>
    rw [epc] at hp
    have hs : s' = { s.put j (.add a b v) with static := upd s.static a (upd (s.static a) b (.made v)) } := by
      rw [← hs']; simp only [step, epc]; rfl
    have hp : s.static a b = .busy j := hp
    by_cases hab : a = k ∧ b = f
    · obtain ⟨rfl, rfl⟩ := hab
      refine ⟨fun h => ?_, fun u h => ?_, fun i w h hm => ?_, fun w h => ?_⟩
      · rw [hp] at h; cases h
      · rw [hp] at h; cases h
      · rw [hp] at h; cases h
        rw [epc] at hm; cases hm
        left; rw [hs]; simp [upd]
      · rw [hp] at h; cases h
    · refine triv ?_ hth (fun w hw => ?_) (by simp [epc])
      · rw [hs]; exact (upd2 a b _).resolve_left hab
      · rw [epc] at hw; cases hw; exact absurd ⟨rfl, rfl⟩ hab
  | _ =>
    rw [epc] at hp
    refine triv ?_ hth (by simp [epc]) (by simp [epc])
    rw [← hs']; simp only [step, epc]
    repeat' split
    all_goals first | rfl | contradiction | simp [State.put, State.ret]

private theorem first_inv (programs : Nat → List Req) (k f : Nat) (is : List Nat) :
    ((run (init programs) is).static k f = .fresh ∧
      ∀ p j q u, is = p ++ j :: q → ((run (init programs) p).threads j).pc ≠ .guard k f u) ∨
    ∃ i w, FirstThere programs k f is i w ∧ ((run (init programs) is).static k f = .made w ∨
      (run (init programs) is).static k f = .busy i ∧ ((run (init programs) is).threads i).pc = .make k f w) := by
  induction h : is.length generalizing is with
  | zero =>
    cases List.length_eq_zero_iff.1 h
    exact .inl ⟨rfl, fun p j q u e => by simp at e⟩
  | succ n ih =>
    obtain ⟨js, j, rfl⟩ : ∃ js j, is = js ++ [j] := by
      rcases List.eq_nil_or_concat is with rfl | ⟨js, j, rfl⟩
      · simp at h
      · exact ⟨js, j, by simp⟩
    have ih := ih js (by simpa using h)
    have o : Ok programs (run (init programs) js) := (Ok.init programs).run js
    obtain ⟨h1, h2, h3, h4⟩ := static_step o k f j
    rw [← run_snoc] at h1 h2 h3 h4
    rcases ih with ⟨e, he⟩ | ⟨i, w, ⟨p, q, e1, e2, e3⟩, e⟩
    · by_cases hg : ∃ u, ((run (init programs) js).threads j).pc = .guard k f u
      · obtain ⟨u, hu⟩ := hg
        exact .inr ⟨j, u, ⟨js, [], rfl, hu, he⟩, .inr (h2 u e hu)⟩
      · refine .inl ⟨h1 e fun u hu => hg ⟨u, hu⟩, fun p i q u hp => ?_⟩
        rcases List.eq_nil_or_concat q with rfl | ⟨q', x, rfl⟩
        · have := List.append_inj' hp rfl
          obtain ⟨rfl, hx⟩ := this
          cases hx
          exact fun hu => hg ⟨u, hu⟩
        · have hp' : js ++ [j] = (p ++ i :: q') ++ [x] := by rw [hp]; simp
          exact he p i q' u (List.append_inj' hp' rfl).1
    · refine .inr ⟨i, w, ⟨p, q ++ [j], by rw [e1]; simp, e2, e3⟩, ?_⟩
      rcases e with e | ⟨e, e'⟩
      · exact .inl (h4 w e)
      · exact h3 i w e e'

/-- C72, exactly: under every interleaving the function a registration uses is the one passed by the thread that was first to get
    to the static of that pair of types and type of functor (and there was such a thread). -/
theorem C72_first_exact (programs : Nat → List Req) (is : List Nat) :
    ∀ e ∈ (run (init programs) is).log, ∀ k f v, e.req = .register k f v →
      (∃ i w, FirstThere programs k f is i w) ∧ ∀ u, e.used = some u ↔ ∃ i, FirstThere programs k f is i u := by
  intro e he k f v er
  have o : Ok programs (run (init programs) is) := (Ok.init programs).run is
  obtain ⟨w', u1, u2⟩ := o.used e he k f v er
  have uniq : ∀ i w i' w', FirstThere programs k f is i w → FirstThere programs k f is i' w' → w = w' := by
    rintro i w i' w' ⟨p, q, a1, a2, a3⟩ ⟨p', q', b1, b2, b3⟩
    rw [a1] at b1
    rcases List.append_eq_append_iff.1 b1 with ⟨l, c1, c2⟩ | ⟨l, c1, c2⟩
    · cases l with
      | nil =>
        simp at c1 c2
        obtain ⟨rfl, rfl⟩ := c2
        subst c1
        rw [a2] at b2; cases b2; rfl
      | cons x l =>
        simp at c2
        obtain ⟨rfl, rfl⟩ := c2
        exact absurd a2 (b3 p i l _ c1)
    · cases l with
      | nil =>
        simp at c1 c2
        obtain ⟨rfl, rfl⟩ := c2
        subst c1
        rw [a2] at b2; cases b2; rfl
      | cons x l =>
        simp at c2
        obtain ⟨rfl, rfl⟩ := c2
        exact absurd b2 (a3 p' i' l w' c1)
  rcases first_inv programs k f is with ⟨h, _⟩ | ⟨i, w, hf, h | ⟨h, _⟩⟩
  · rw [h] at u2; cases u2
  · rw [h] at u2; cases u2
    refine ⟨⟨i, _, hf⟩, fun u => ⟨fun hu => ?_, fun ⟨i', hf'⟩ => ?_⟩⟩
    · rw [u1] at hu; cases hu; exact ⟨i, hf⟩
    · rw [u1, uniq _ _ _ _ hf hf']
  · rw [h] at u2; cases u2

/- thread 1 registers its function 8 first, but the static was made by thread 0 with 7 -/
example : let programs : Nat → List Req := fun i => if i = 0 then [.register 0 0 7] else if i = 1 then [.register 0 0 8] else []
    FirstThere programs 0 0 [0, 0, 0, 1, 1, 1] 0 7 ∧
    (run (init programs) [0, 0, 0, 1, 1, 1]).log = [⟨1, .register 0 0 8, .flag true, some 7⟩] := by
  refine ⟨⟨[0], [0, 1, 1, 1], rfl, by decide +kernel, ?_⟩, by decide +kernel⟩
  intro p' j q' u e
  match p', e with
  | [], e =>
    cases e
    simp [run, init]
  | [_], e => simp at e
  | _ :: _ :: _, e => simp at e

end Rtti.Props
