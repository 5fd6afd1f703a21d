import Verif.Model.Align
import Verif.Lemmas.Reading
import Verif.Props.VariantExact
/-
C80: objects kept in variants are aligned.
-/
set_option autoImplicit false
namespace Rtti.Props
open Rtti Spec VMem Val Reading Align

/-- alignments are powers of two that divide the size ([basic.align], [expr.sizeof]) -/
def LegalAlign (al : Base → Nat) : Prop := ∀ b, 0 < b.size → al b ∣ b.size ∧ ∃ k, al b = 2 ^ k

/-- an object of the type can be put into a variant: copying it does not fail, nor does the first allocation -/
structure Storable (P : Prog) (t : Nat) : Prop where
  copyable : (P.ty t).copyable = true
  copies : ∃ v, ((P.ty t).copy v).isSome = true
  array : (P.ty t).place = .array → (P.ty t).trivial = true
  memory : P.oom 0 = false

/-- C80: in every program, what a variant stores is aligned unless its alignment exceeds 8 in the variant itself, or 16 on the
    heap. -/
theorem C80_aligned_partial {P : Prog} {L : Layout} (hL : L.Of P) (hA : Aligned L) (al : Base → Nat) {s : State} (r : Reach P L s)
    {x id t v : Nat} {a : Addr} (h : Owns L s x a id) (ho : s.mem.objs id = some ⟨t, v⟩)
    (hin : (L.ty t).isArray = false → (L.ty t).sizeOf ≤ 16 → alignOf al (L.ty t) ∣ 8)
    (hout : ((L.ty t).isArray = true ∨ 16 < (L.ty t).sizeOf) → alignOf al (L.ty t) ∣ 16) : alignOf al (L.ty t) ∣ a := by
  have g := r.good.1
  cases h with
  | @inside t' _ e =>
    have hp : (P.ty t').place = .small := Classical.byContradiction fun hp => by
      obtain ⟨b, _, _, hc, _⟩ := g.big _ _ _ e hp
      cases hc
    obtain ⟨id', w, hc, ho'⟩ := g.small _ _ _ e hp
    cases hc
    rw [ho] at ho'
    cases ho'
    obtain ⟨h1, h2⟩ := (hL.small t).1 hp
    exact Nat.dvd_trans (hin ((not_arr_iff _).1 h1) h2) (hA.var x)
  | @onHeap t' b _ e hb =>
    have hp : (P.ty t').place ≠ .small := fun hp => by
      obtain ⟨id', w, hc, ho'⟩ := g.small _ _ _ e hp
      cases hc
    obtain ⟨b', id', w, hc, hb', ho'⟩ := g.big _ _ _ e hp
    cases hc
    rw [hb] at hb'
    cases hb'
    rw [ho] at ho'
    cases ho'
    refine Nat.dvd_trans (hout ?_) (hA.heap b)
    cases ha : (L.ty t).isArray
    · exact .inr (Nat.lt_of_not_le fun h => hp ((hL.small t).2 ⟨(not_arr_iff _).2 ha, h⟩))
    · exact .inl rfl

/-- C80: and these are exactly the types that are safe: of any other type that can be stored at all, there is a program, with
    its variant where the compiler may well put it, that has an object where it must not be. -/
theorem C80_exact {P : Prog} {L₀ : Layout} (hL : L₀.Of P) (al : Base → Nat) {t : Nat} (hs : Storable P t) :
    (∀ L, L.Of P → Aligned L → L.ty = L₀.ty → ∀ s, Reach P L s → ∀ x a id v, Owns L s x a id → s.mem.objs id = some ⟨t, v⟩ →
      alignOf al (L₀.ty t) ∣ a) ↔
    alignOf al (L₀.ty t) ∣ (if (L₀.ty t).isArray = false ∧ (L₀.ty t).sizeOf ≤ 16 then 8 else 16) := by
  constructor
  · intro h
    let L : Layout := ⟨L₀.ty, fun x => 16 * x + 8, fun b => 16 * b + 16, L₀.bits, L₀.junk⟩
    have hL' : L.Of P := by
      refine ⟨hL.small, hL.array, hL.copyable, hL.nofunc, fun x h => ?_, fun b h => ?_, fun x y h => ?_, fun x y h => ?_, fun x b h => ?_⟩
      all_goals simp only [L] at h; omega
    have hA : Aligned L := ⟨fun x => ⟨2 * x + 1, by simp only [L]; omega⟩, fun b => ⟨b + 1, by simp only [L]; omega⟩⟩
    obtain ⟨v, hv⟩ := hs.copies
    obtain ⟨v', hv⟩ := Option.isSome_iff_exists.1 hv
    have hnt : ¬((P.ty t).place = .array ∧ (P.ty t).trivial = false) := fun ⟨h1, h2⟩ => by rw [hs.array h1] at h2; cases h2
    by_cases hp : (P.ty t).place = .small
    · have e : exec P (.value 0 t v false) VMem.init = (.ok (), put (some 0) (some ⟨.own t, .obj 0⟩)
          ⟨fun _ => none, (born t v' VMem.init.mem).2⟩) := by
        simp [exec, isLive, VMem.init, newValue, hs.copyable, lift, fCopyConstruct, noexcept, hp, bind, M.bind, copyVal, hv, born, pure, M.pure]
      have r : Reach P L _ := Reach.done (.value 0 t v false) .init (by rw [e])
      rw [e] at r
      have := h L hL' hA rfl _ r 0 (L.var 0) 0 v' (.inside (t := t) (by simp [put, upd])) (by simp [put, born, VMem.init, upd])
      obtain ⟨h1, h2⟩ := (hL.small t).1 hp
      rw [if_pos ⟨(not_arr_iff _).1 h1, h2⟩]
      exact this
    · have e : exec P (.value 0 t v false) VMem.init = (.ok (), put (some 0) (some ⟨.own t, .block 0⟩)
          ⟨fun _ => none, { (born t v' (allocate P VMem.init.mem).2).2 with blocks := upd (upd (fun _ => none) 0 (some none)) 0 (some (some 0)) }⟩) := by
        simp only [exec, isLive, VMem.init, newValue, hs.copyable, lift, fCopyConstruct]
        simp [noexcept, bind, M.bind, copyVal, hs.copyable, hnt, hv, born, pure, M.pure, allocate, hs.memory, setBlock, upd]
      have r : Reach P L _ := Reach.done (.value 0 t v false) .init (by rw [e])
      rw [e] at r
      have := h L hL' hA rfl _ r 0 (L.heap 0) 0 v' (.onHeap (t := t) (b := 0) (by simp [put, upd]) (by simp [put, upd]))
        (by simp [put, born, allocate, VMem.init, upd, hs.memory])
      rw [if_neg]
      · exact this
      · rintro ⟨h1, h2⟩
        exact hp ((hL.small t).2 ⟨(not_arr_iff _).2 h1, h2⟩)
  · intro h L hL' hA e s r x a id v ho hi
    rw [← e] at h ⊢
    refine C80_aligned_partial hL' hA al r ho hi (fun h1 h2 => ?_) fun h1 => ?_
    · rwa [if_pos ⟨h1, h2⟩] at h
    · rwa [if_neg] at h
      rintro ⟨h2, h3⟩
      rcases h1 with h1 | h1
      · rw [h1] at h2; cases h2
      · omega

theorem two_pow_dvd {k n : Nat} : 2 ^ k ∣ 2 ^ n ↔ 2 ^ k ≤ 2 ^ n :=
  ⟨Nat.le_of_dvd (Nat.two_pow_pos n), fun h => Nat.pow_dvd_pow 2 ((Nat.pow_le_pow_iff_right (by decide)).1 h)⟩

theorem alignOf_pow {al : Base → Nat} (hl : LegalAlign al) (t : CType) (ht : ∀ b, t.baseType = b → 0 < b.size) : ∃ k, alignOf al t = 2 ^ k := by
  induction t with
  | base b q => exact (hl b (ht b rfl)).2
  | ptr q t => exact ⟨3, rfl⟩
  | arr n t ih => exact ih ht

/-- C80: so in a variant itself the types that go wrong are those of size and alignment 16 (`long double`, `__int128`), on the heap the
    over-aligned ones. -/
theorem C80_which {al : Base → Nat} (hl : LegalAlign al) (t : CType) (ht : ∀ b, t.baseType = b → 0 < b.size) :
    (t.isArray = false → t.sizeOf ≤ 16 → (alignOf al t ∣ 8 ↔ ¬(alignOf al t = 16 ∧ t.sizeOf = 16))) ∧
    (alignOf al t ∣ 16 ↔ alignOf al t ≤ 16) := by
  obtain ⟨k, hk⟩ := alignOf_pow hl t ht
  refine ⟨fun ha hs => ?_, ?_⟩
  · have hd : alignOf al t ∣ t.sizeOf ∧ 0 < t.sizeOf := by
      cases t with
      | base b q => exact ⟨(hl b (ht b rfl)).1, ht b rfl⟩
      | ptr q t => exact ⟨Nat.dvd_refl 8, by simp [CType.sizeOf]⟩
      | arr n t => cases ha
    have hle := Nat.le_of_dvd hd.2 hd.1
    rw [hk, show (8 : Nat) = 2 ^ 3 from rfl, two_pow_dvd]
    have k4 : k ≤ 4 := (Nat.pow_le_pow_iff_right (a := 2) (by decide)).1 (by rw [← hk]; exact Nat.le_trans hle hs)
    have : k = 4 ∨ k ≤ 3 := by omega
    rcases this with rfl | h3
    · rw [hk] at hle
      have : t.sizeOf = 16 := Nat.le_antisymm hs hle
      simp [this]
    · have h8 : 2 ^ k ≤ 2 ^ 3 := Nat.pow_le_pow_right (by decide) h3
      refine ⟨fun _ h => ?_, fun _ => h8⟩
      have h16 := h.1
      omega
  · rw [hk, show (16 : Nat) = 2 ^ 4 from rfl, two_pow_dvd]

namespace ExA
/-- `long double`: 16 bytes, aligned to 16 -/
def ld : Base := ⟨90, .floating, 16, ⟨true, true, false, false, true, true, true, true, true, true, true⟩⟩
def al : Base → Nat := fun b => if b.size = 0 then 1 else if b.size % 16 = 0 then 16 else if b.size % 8 = 0 then 8 else if b.size % 4 = 0 then 4 else if b.size % 2 = 0 then 2 else 1
def P : Prog := ⟨fun _ => ⟨.small, true, true, true, true, true, some, fun v => some (v, v)⟩, fun _ => false⟩
def L : Layout := ⟨fun _ => .base ld ⟨false, false⟩, fun x => 16 * x + 8, fun b => 16 * b + 16, fun _ v => v, 0⟩
theorem L_of : L.Of P := by
  refine ⟨fun t => ?_, fun t => ?_, fun t => rfl, fun t b q h => ?_, fun x h => ?_, fun b h => ?_, fun x y h => ?_, fun x y h => ?_, fun x b h => ?_⟩
  · exact ⟨fun _ => ⟨nofun, Nat.le_refl 16⟩, fun _ => rfl⟩
  · exact ⟨nofun, fun ⟨_, _, h⟩ => by cases h⟩
  · cases h; decide
  all_goals simp only [L] at h; omega
end ExA

/-- C80: false of the code: a `long double` in a variant at an address the compiler may choose. -/
theorem C80_false : ∃ s x id v a, Reach ExA.P ExA.L s ∧ Aligned ExA.L ∧ Owns ExA.L s x a id ∧ s.mem.objs id = some ⟨0, v⟩ ∧
    ¬alignOf ExA.al (ExA.L.ty 0) ∣ a :=
  ⟨(exec ExA.P (.value 0 0 7 false) VMem.init).2, 0, 0, 7, 8, .done _ .init (by decide +kernel),
    ⟨fun x => ⟨2 * x + 1, by simp only [ExA.L]; omega⟩, fun b => ⟨b + 1, by simp only [ExA.L]; omega⟩⟩,
    .inside (t := 0) (by decide +kernel), by decide +kernel, by decide⟩

-- `long double` can be stored and has size and alignment 16; `B` of the other examples is safe
example : Storable ExA.P 0 ∧ ExA.L.Of ExA.P ∧ (ExA.L.ty 0).sizeOf = 16 ∧ alignOf ExA.al (ExA.L.ty 0) = 16 :=
  ⟨⟨rfl, ⟨0, rfl⟩, nofun, rfl⟩, ExA.L_of, rfl, rfl⟩
example : LegalAlign ExA.al := by
  intro b hb
  unfold ExA.al
  have h0 : b.size ≠ 0 := by omega
  simp only [h0, if_false]
  split
  · exact ⟨by omega, 4, rfl⟩
  · split
    · exact ⟨by omega, 3, rfl⟩
    · split
      · exact ⟨by omega, 2, rfl⟩
      · split
        · exact ⟨by omega, 1, rfl⟩
        · exact ⟨by omega, 0, rfl⟩
example : alignOf ExA.al Ex.int ∣ 8 ∧ alignOf ExA.al (.arr 3 (.base ExA.ld ⟨false, false⟩)) ∣ 16 := by decide

end Rtti.Props
