import Verif.Lemmas.InPlaceBlk
import Verif.Props.InPlace
/-! C87: the blocks of programs that convert variants in place. -/
set_option autoImplicit false
namespace Rtti.Props
open VMem CallMem InPlace

/-- Leaks, exactly: after any program, a block is in use if and only if a variant keeps it, or it was allocated by a step that then threw
    or answered no. -/
theorem C87_leak_iff (P : Prog) (as : List Act) (l : List (Option Bool)) (h : (InPlace.run P as VMem.init).1 = .ok l) (b : Nat) :
    InUse (InPlace.run P as VMem.init).2.mem.log b ↔
      (∃ x, VMem.Keeps (InPlace.run P as VMem.init).2 x b) ∨
      ∃ cs a ds s' o, as = cs ++ a :: ds ∧ act P a (InPlace.run P cs VMem.init).2 = (o, s') ∧ (o = .threw ∨ o = .ok false) ∧
        InUse s'.mem.log b ∧ ¬InUse (InPlace.run P cs VMem.init).2.mem.log b := by
  obtain ⟨N, hN⟩ := bounded as
  obtain ⟨-, h2⟩ := run_told as hN (Sim.init P)
  obtain ⟨s0, g, hs, -⟩ := h2 l h
  have hb := InPlace.run_blk as (L := fun _ => False) (Sim.init P) LogInv.init h (by simp [Blk, VMem.init])
  have li := keeping_run P as _ LogInv.init
  have hd := dropped_iff (b := b) as _ _ h
  have hd : InPlace.Dropped P as VMem.init b ↔ ∃ cs a ds s' o, as = cs ++ a :: ds ∧ act P a (InPlace.run P cs VMem.init).2 = (o, s') ∧
      (o = .threw ∨ o = .ok false) ∧ InUse s'.mem.log b ∧ ¬InUse (InPlace.run P cs VMem.init).2.mem.log b := by
    rw [hd]
    constructor
    · rintro ⟨cs, a, ds, e, h1, h2, h3⟩; exact ⟨cs, a, ds, _, _, e, rfl, h1, h2, h3⟩
    · rintro ⟨cs, a, ds, s', o, e, h0, h1, h2, h3⟩
      exact ⟨cs, a, ds, e, by rw [h0]; exact h1, by rw [h0]; exact h2, h3⟩
  rw [← hd, ← li.blocks]
  have eenv : (InPlace.run P as VMem.init).2.env = s0.env := by rw [hs.is]; rfl
  have eblk : (InPlace.run P as VMem.init).2.mem.blocks = s0.mem.blocks := by rw [hs.is]; rfl
  constructor
  · intro hu
    obtain ⟨o, e⟩ := Option.isSome_iff_exists.1 hu
    cases o with
    | none => exact .inr (by simpa using (hb.1 b).1 e)
    | some id =>
      obtain ⟨k, t, hk⟩ := hb.2 b id e
      cases k with
      | none => rw [eenv, hs.noTemp] at hk; cases hk
      | some x => exact .inl ⟨x, t, hk⟩
  · rintro (⟨x, t, hx⟩ | hd)
    · rw [eenv] at hx
      have := Inv.content_some hs.good hx
      rw [eblk]
      cases e : s0.mem.blocks b with
      | none => simp [content, e] at this
      | some o => rfl
    · rw [(hb.1 b).2 (.inr hd)]; rfl

/-- When all variants are gone, every block was given back if and only if no step that threw or answered no had allocated one. -/
theorem C87_freed_iff (P : Prog) (as : List Act) (l : List (Option Bool)) (h : (InPlace.run P as VMem.init).1 = .ok l)
    (hg : ∀ x, view (InPlace.run P as VMem.init).2 x = none) :
    (∀ b, ¬InUse (InPlace.run P as VMem.init).2.mem.log b) ↔
      ∀ cs a ds s' o, as = cs ++ a :: ds → act P a (InPlace.run P cs VMem.init).2 = (o, s') → (o = .threw ∨ o = .ok false) →
        ∀ b, InUse s'.mem.log b → InUse (InPlace.run P cs VMem.init).2.mem.log b := by
  obtain ⟨N, hN⟩ := bounded as
  obtain ⟨-, h2⟩ := run_told as hN (Sim.init P)
  obtain ⟨s0, g, hs, -⟩ := h2 l h
  have none : ∀ x b, ¬VMem.Keeps (InPlace.run P as VMem.init).2 x b := by
    rintro x b ⟨t, hx⟩
    have eenv : (InPlace.run P as VMem.init).2.env = s0.env := by rw [hs.is]; rfl
    rw [eenv] at hx
    have h1 := Inv.content_some hs.good hx
    have h2 := hg x
    rw [hs.view] at h2
    simp [view, hx] at h2
    rw [h2] at h1
    cases h1
  constructor
  · intro hn cs a ds s' o e h1 h2 b h3
    apply Classical.byContradiction
    intro h4
    exact hn b ((C87_leak_iff P as l h b).2 (.inr ⟨cs, a, ds, s', o, e, h1, h2, h3, h4⟩))
  · intro hn b hu
    rcases (C87_leak_iff P as l h b).1 hu with ⟨x, hx⟩ | ⟨cs, a, ds, s', o, e, h1, h2, h3, h4⟩
    · exact none x b hx
    · exact h4 (hn cs a ds s' o e h1 h2 b h3)

/-- heap objects: the second move of a 13 throws -/
def brittle : Prog := ⟨fun t => if t = 0 then ⟨.big, true, true, false, false, false, some, fun v => if v = 13 then none else some (v + 1, v)⟩
  else sampleTypes t, fun _ => false⟩

/-- A conversion to a type kept on the heap whose move constructor throws loses the block, and answers no. -/
theorem C87_loses_block_false :
    (InPlace.run brittle [.cmd (.value 1 1 1 false), .tryConvert 1 0 fun _ => .made 12 true, .cmd (.destroy 1)] VMem.init).1 =
      .ok [some true, some false, some true] ∧
    InUse (InPlace.run brittle [.cmd (.value 1 1 1 false), .tryConvert 1 0 fun _ => .made 12 true, .cmd (.destroy 1)] VMem.init).2.mem.log 1 := by
  unfold InUse; decide

-- and a block that a variant keeps
example : VMem.Keeps (InPlace.run brittle [.cmd (.value 1 1 1 false), .tryConvert 1 0 fun _ => .made 7 true] VMem.init).2 1 1 ∧
    (InPlace.run brittle [.cmd (.value 1 1 1 false), .tryConvert 1 0 fun _ => .made 7 true] VMem.init).1 = .ok [some true, some true] := ⟨⟨0, by rfl⟩, by decide⟩

end Rtti.Props
