import Verif.Props.CastRace
/-! C84: the address answered need not be the one a single thread would have got at any moment. -/
set_option autoImplicit false
namespace Rtti.Props
open Rtti CastRace

namespace ExMoment
/-- 4 has the bases 3 and 2; 3 : 1 and then 2 : 1 are declared while 4 is cast to 1 -/
def programs : Nat → List Req
  | 0 => [.addBase 4 3 (· + 100), .addBase 4 2 (· + 10), .addBase 3 1 (· + 2), .addBase 2 1 (· + 1)]
  | 1 => [.cast 4 1 1000]
  | _ => []

/-- 3 is asked before 3 : 1 is declared, 2 after 2 : 1 is -/
def sched : List Nat := List.replicate 6 0 ++ List.replicate 6 1 ++ List.replicate 6 0 ++ List.replicate 20 1

def at_ (k : Nat) : State := run true (init 2 programs) (sched.take k)

theorem cycles : NoCastCycles id programs := by
  intro i d b f h
  match i with
  | 0 =>
    simp only [programs, List.mem_cons, Req.addBase.injEq, List.not_mem_nil, or_false] at h
    rcases h with ⟨rfl, rfl, _⟩ | ⟨rfl, rfl, _⟩ | ⟨rfl, rfl, _⟩ | ⟨rfl, rfl, _⟩ <;> decide
  | 1 => simp [programs] at h
  | _ + 2 => simp [programs] at h

theorem bases : ∀ k, k ≤ sched.length →
    (((at_ k).bases 3).map (·.1) = [] ∧ ((at_ k).bases 2).map (·.1) = []) ∨
    (((at_ k).bases 4).map (·.1) = [3, 2] ∧ ((at_ k).bases 3).map (·.1) = [1]) := by
  decide +kernel

theorem ends : ((at_ sched.length).threads 1).answers.map (fun a => (a.q.d, a.q.t, a.q.x, a.r)) = [(4, 1, 1000, some 1011)] := by decide +kernel
end ExMoment

/-- Not only is the hierarchy another one before and after: with bases declared meanwhile the answer may be an address that the cast
    would have given at no moment of the run, before, during or after the call (base 3 is asked before it leads to the target, base 2
    after; at no moment does only base 2 lead there). -/
theorem C84_moment_false : ∃ (programs : Nat → List Req) (sched : List Nat) (a : Answer) (y : Addr), NoCastCycles id programs ∧
    a ∈ ((run true (init 2 programs) sched).threads 1).answers ∧ a.r = some y ∧
    ∀ k, k ≤ sched.length → ¬First (run true (init 2 programs) (sched.take k)).bases a.q.t a.q.d a.q.x y := by
  have he := ExMoment.ends
  unfold ExMoment.at_ at he
  rw [List.take_length] at he
  match hl : ((run true (init 2 ExMoment.programs) ExMoment.sched).threads 1).answers with
  | [] => rw [hl] at he; cases he
  | a :: l =>
    rw [hl] at he
    simp only [List.map_cons, List.cons.injEq, Prod.mk.injEq] at he
    obtain ⟨⟨h1, h2, h3, h4⟩, _⟩ := he
    refine ⟨ExMoment.programs, ExMoment.sched, a, 1011, ExMoment.cycles, by rw [hl]; exact List.mem_cons_self .., h4, fun k hk hf => ?_⟩
    rw [h1, h2, h3] at hf
    have asked := (Asked.init 2 ExMoment.programs).run (fair := true) (ExMoment.sched.take k)
    have hb := ExMoment.bases k hk
    unfold ExMoment.at_ at hb
    generalize run true (init 2 ExMoment.programs) (ExMoment.sched.take k) = s at *
    -- what can be declared
    have decl : ∀ d it, it ∈ s.bases d → (d = 4 ∧ it = (3, (· + 100))) ∨ (d = 4 ∧ it = (2, (· + 10))) ∨ (d = 3 ∧ it = (1, (· + 2))) ∨
        (d = 2 ∧ it = (1, (· + 1))) := by
      intro d it hit
      obtain ⟨i, hi, hm⟩ := asked.base d it hit
      match i, hi with
      | 0, _ =>
        simp only [ExMoment.programs, List.mem_cons, Req.addBase.injEq, List.not_mem_nil, or_false] at hm
        rcases hm with ⟨rfl, e1, e2⟩ | ⟨rfl, e1, e2⟩ | ⟨rfl, e1, e2⟩ | ⟨rfl, e1, e2⟩
        · exact .inl ⟨rfl, Prod.ext e1 e2⟩
        · exact .inr (.inl ⟨rfl, Prod.ext e1 e2⟩)
        · exact .inr (.inr (.inl ⟨rfl, Prod.ext e1 e2⟩))
        · exact .inr (.inr (.inr ⟨rfl, Prod.ext e1 e2⟩))
      | 1, _ => simp [ExMoment.programs] at hm
    rcases hb with ⟨e3, e2⟩ | ⟨e4, e3⟩
    · -- nothing leads to 1
      have e3 := List.map_eq_nil_iff.1 e3
      have e2 := List.map_eq_nil_iff.1 e2
      cases hf.route.leads with
      | step it hit hl =>
        rcases decl 4 it hit with ⟨_, rfl⟩ | ⟨_, rfl⟩ | ⟨h, _⟩ | ⟨h, _⟩
        · cases hl with
          | step it hit => rw [e3] at hit; cases hit
        · cases hl with
          | step it hit => rw [e2] at hit; cases hit
        · cases h
        · cases h
    · -- 3 does, and is first
      have l3 : Leads s.bases 3 1 := by
        obtain ⟨it, hit, hi1⟩ := List.mem_map.1 (show 1 ∈ (s.bases 3).map (·.1) by rw [e3]; exact List.mem_singleton.2 rfl)
        exact .step it hit (by rw [hi1]; exact .refl _)
      cases hf with
      | up pre it post _ e hpre _ h =>
        cases pre with
        | nil =>
          rw [e] at e4
          simp only [List.nil_append, List.map_cons, List.cons.injEq] at e4
          have hit := decl 4 it (by rw [e]; simp)
          rcases hit with ⟨_, rfl⟩ | ⟨_, rfl⟩ | ⟨h, _⟩ | ⟨h, _⟩
          · cases h with
            | up pre it post _ e' _ _ h =>
              rcases decl 3 it (by rw [e']; simp) with ⟨h, _⟩ | ⟨h, _⟩ | ⟨_, rfl⟩ | ⟨h, _⟩
              · cases h
              · cases h
              · cases h with
                | up _ _ _ hne => exact absurd rfl hne
              · cases h
          · cases e4.1
          · cases h
          · cases h
        | cons p pre =>
          rw [e] at e4
          simp only [List.cons_append, List.map_cons, List.cons.injEq] at e4
          exact hpre p (List.mem_cons_self ..) (by rw [e4.1]; exact l3)

end Rtti.Props
