import Verif.Lemmas.WalkFirst
import Verif.Props.WalkRace
/-! C71: which class a walk finds. -/
set_option autoImplicit false
namespace Rtti.Props
open Rtti WalkRace

/-- C71: if no base was declared between the call and its answer, the answer is that of a single thread: the first hit, depth first and
    in the order of declaration (there is just one), and none exactly if there is no hit. (Right after the answer the bases are those
    at the answer.) -/
theorem C71_undisturbed {n : Nat} {programs : Nat → List Req} (fair : Bool) (is : List Nat) {i : Nat} {q : Walk} {r : Option Ptr}
    (h : (q, r) ∈ ((run fair (init n programs) is).threads i).results) (hq : q.start = (run fair (init n programs) is).bases) :
    (∀ c, r = some c ↔ FirstHit q.start q.hit q.d c) ∧ (r = none ↔ ∀ t, Leads q.start q.d t → q.hit t = false) := by
  have := ((Fst.init n programs).run (fair := fair) is).results i _ h hq
  rw [← hq] at this
  cases r with
  | none =>
    refine ⟨fun c => ⟨nofun, fun hf => ?_⟩, ⟨fun _ => this, fun _ => rfl⟩⟩
    have h1 := hf.leads
    rw [this _ h1.2] at h1; cases h1.1
  | some c =>
    refine ⟨fun c' => ⟨fun e => by cases e; exact this, fun hf => by rw [FirstHit.unique this hf]⟩, ⟨nofun, fun hn => ?_⟩⟩
    have h1 := FirstHit.leads this
    rw [hn _ h1.2] at h1; cases h1.1

namespace ExWhich
/-- 4 has the bases 3 and 2; 3 : 5 and then 2 : 6 are declared while 4 is asked for a member that 5 and 6 have -/
def programs : Nat → List Req
  | 0 => [.addBase 4 3, .addBase 4 2, .addBase 3 5, .addBase 2 6]
  | 1 => [.find 4 fun c => c == 5 || c == 6]
  | _ => []
def rank : Ptr → Nat := fun c => if c < 5 then c else 0
/-- 3 is searched before 3 : 5 is declared, 2 after 2 : 6 is -/
def sched : List Nat := List.replicate 8 0 ++ List.replicate 5 1 ++ List.replicate 8 0 ++ List.replicate 12 1
def at_ (k : Nat) : State := run true (init 2 programs) (sched.take k)

theorem cycles : NoCycles rank programs := by
  intro i d b h
  match i with
  | 0 =>
    simp only [programs, List.mem_cons, Req.addBase.injEq, List.not_mem_nil, or_false] at h
    rcases h with ⟨rfl, rfl⟩ | ⟨rfl, rfl⟩ | ⟨rfl, rfl⟩ | ⟨rfl, rfl⟩ <;> decide
  | 1 => simp [programs] at h
  | _ + 2 => simp [programs] at h

theorem bases : ∀ k, k ≤ sched.length →
    ((at_ k).bases 3 = [] ∧ (at_ k).bases 2 = [] ∨ (at_ k).bases 4 = [3, 2] ∧ (at_ k).bases 3 = [5]) ∧ (at_ k).bases 4 ⊆ [3, 2] := by
  decide +kernel

theorem ends : ((at_ sched.length).threads 1).results.map (fun a => (a.1.d, a.1.hit 5, a.2)) =
    [(4, true, some 6)] := by decide +kernel
end ExWhich

/-- With bases declared meanwhile the member found may be one that the look-up would have found at no moment of the run (3 is
    searched before it leads to a class with such a member, 2 after; at no moment does only 2 lead to one). -/
theorem C71_which_false : ∃ (rank : Ptr → Nat) (programs : Nat → List Req) (sched : List Nat) (q : Walk) (c : Ptr), NoCycles rank programs ∧
    (q, some c) ∈ ((run true (init 2 programs) sched).threads 1).results ∧
    ∀ k, k ≤ sched.length → ¬FirstHit (run true (init 2 programs) (sched.take k)).bases q.hit q.d c := by
  have he := ExWhich.ends
  unfold ExWhich.at_ at he
  rw [List.take_length] at he
  match hl : ((run true (init 2 ExWhich.programs) ExWhich.sched).threads 1).results with
  | [] => rw [hl] at he; cases he
  | (q, r) :: l =>
    rw [hl] at he
    simp only [List.map_cons, List.cons.injEq, Prod.mk.injEq] at he
    obtain ⟨⟨h1, h5, h6⟩, _⟩ := he
    subst h6
    refine ⟨ExWhich.rank, ExWhich.programs, ExWhich.sched, q, 6, ExWhich.cycles, by rw [hl]; exact List.mem_cons_self .., fun k hk hf => ?_⟩
    rw [h1] at hf
    obtain ⟨hb, hsub⟩ := ExWhich.bases k hk
    unfold ExWhich.at_ at hb hsub
    generalize run true (init 2 ExWhich.programs) (ExWhich.sched.take k) = s at *
    have l5 : s.bases 3 = [5] → ¬NoHit s.bases q.hit 3 := fun e h => by
      have := h 5 (.step (by rw [e]; exact List.mem_singleton.2 rfl) (.refl _))
      rw [h5] at this; cases this
    cases hf with
    | up pre b post _ e hpre hf =>
      rcases hb with ⟨e3, e2⟩ | ⟨e4, e3⟩
      · have hmem := hsub (show b ∈ s.bases 4 by rw [e]; simp)
        simp only [List.mem_cons, List.not_mem_nil, or_false] at hmem
        rcases hmem with rfl | rfl
        · cases hf with
          | up pre b post _ e => rw [e3] at e; simp at e
        · cases hf with
          | up pre b post _ e => rw [e2] at e; simp at e
      · rw [e4] at e
        cases pre with
        | nil =>
          simp only [List.nil_append, List.cons.injEq] at e
          obtain ⟨rfl, _⟩ := e
          cases hf with
          | up pre b post _ e hpre hf =>
            rw [e3] at e
            cases pre with
            | nil =>
              simp only [List.nil_append, List.cons.injEq] at e
              obtain ⟨rfl, _⟩ := e
              cases hf with
              | up _ _ _ hn => rw [h5] at hn; cases hn
            | cons p pre => simp at e
        | cons p pre =>
          simp only [List.cons_append, List.cons.injEq] at e
          obtain ⟨rfl, _⟩ := e
          exact l5 e3 (hpre 3 (List.mem_cons_self ..))

-- `C71_undisturbed`: in ExWalk's program, asked when all is declared
example : ∃ q, (q, some 1) ∈ ((run true (init 2 ExWalk.programs) (List.replicate 8 0 ++ List.replicate 20 1)).threads 1).results ∧
    q.start = (run true (init 2 ExWalk.programs) (List.replicate 8 0 ++ List.replicate 20 1)).bases ∧
    FirstHit q.start q.hit 3 1 := by
  refine ⟨⟨3, (· == 1), (run true (init 2 ExWalk.programs) (List.replicate 8 0)).bases⟩, List.mem_cons_self .., rfl, ?_⟩
  exact .up [] 2 [] rfl rfl nofun (.up [] 1 [] rfl rfl nofun (.here rfl))

end Rtti.Props
