import Verif.Spec.Construct
import Verif.Lemmas.World
/-
Lemmas for C57.
-/
set_option autoImplicit false
namespace Rtti.Mk
open VMem (Out)

/-- the accounting of objects -/
structure Inv (P : Prog) (m : Mem) : Prop where
  at_ctor : ∀ (b : Nat) (k : Block) (i id v : Nat), m.blocks b = some k → k.slots[i]? = some (Slot.obj id v) → Ev.ctor id k.ty ∈ m.log
  at_dtor : ∀ id, Alive m id → m.log.count (.dtor id) = 0
  at_unique : ∀ id b i b' i', At m id b i → At m id b' i' → b = b' ∧ i = i'
  ctor_lt : ∀ id t, Ev.ctor id t ∈ m.log → id < m.nextObj
  ctor_one : ∀ id t, m.log.count (.ctor id t) ≤ 1
  ctor_type : ∀ id t t', Ev.ctor id t ∈ m.log → Ev.ctor id t' ∈ m.log → t = t'
  dtor_ctor : ∀ id, Ev.dtor id ∈ m.log → ∃ t, Ev.ctor id t ∈ m.log
  dead : ∀ id t, Ev.ctor id t ∈ m.log → Alive m id ∨ m.log.count (.dtor id) = 1 ∨
    (m.log.count (.dtor id) = 0 ∧ (P.ty t).trivDtor = true)
  lost : ∀ id, Ev.lost id ∉ m.log
  block_lt : ∀ b, m.blocks b ≠ none → b < m.nextBlock

theorem inv_init (P : Prog) : Inv P Mem.init := by
  constructor <;> simp [Mem.init, Alive, At]

/-- nothing but the counters of calls changed -/
theorem Inv.congr {P : Prog} {m m' : Mem} (h : Inv P m) (hb : m'.blocks = m.blocks) (hn : m'.nextObj = m.nextObj)
    (hl : m'.log = m.log) (hk : m.nextBlock ≤ m'.nextBlock) : Inv P m' := by
  have ha : ∀ id b i, At m' id b i ↔ At m id b i := by simp [At, hb]
  have hv : ∀ id, Alive m' id ↔ Alive m id := by simp [Alive, ha]
  constructor
  · intro b k i id v h1 h2; rw [hl]; exact h.at_ctor b k i id v (hb ▸ h1) h2
  · intro id h1; rw [hl]; exact h.at_dtor id ((hv id).1 h1)
  · intro id b i b' i' h1 h2; exact h.at_unique id b i b' i' ((ha _ _ _).1 h1) ((ha _ _ _).1 h2)
  · intro id t h1; rw [hn]; exact h.ctor_lt id t (hl ▸ h1)
  · intro id t; rw [hl]; exact h.ctor_one id t
  · intro id t t' h1 h2; exact h.ctor_type id t t' (hl ▸ h1) (hl ▸ h2)
  · intro id h1; rw [hl]; exact h.dtor_ctor id (hl ▸ h1)
  · intro id t h1; rw [hl, hv]; exact h.dead id t (hl ▸ h1)
  · intro id; rw [hl]; exact h.lost id
  · intro b hb'; exact Nat.lt_of_lt_of_le (h.block_lt b (hb ▸ hb')) hk

theorem Inv.at_lt {P : Prog} {m : Mem} (h : Inv P m) {id b i : Nat} (ha : At m id b i) : id < m.nextObj := by
  obtain ⟨k, v, h1, h2⟩ := ha
  exact h.ctor_lt _ _ (h.at_ctor b k i id v h1 h2)

/-- an object comes to life in a raw slot -/
def birth (b : Nat) (k : Block) (i v : Nat) (m : Mem) : Mem :=
  { m with blocks := upd m.blocks b (some { k with slots := k.slots.set i (.obj m.nextObj v) }),
           nextObj := m.nextObj + 1, log := .ctor m.nextObj k.ty :: m.log }

theorem at_birth {m : Mem} {b i v : Nat} {k : Block} (hk : m.blocks b = some k) (hr : k.slots[i]? = some .raw) (id b' i' : Nat) :
    At (birth b k i v m) id b' i' ↔ (b' = b ∧ i' = i ∧ id = m.nextObj) ∨ At m id b' i' := by
  have hi : i < k.slots.length := by
    rw [List.getElem?_eq_some_iff] at hr; exact hr.1
  have hb0 : (birth b k i v m).blocks b' =
      if b' = b then some { k with slots := k.slots.set i (.obj m.nextObj v) } else m.blocks b' := rfl
  by_cases hb : b' = b
  · subst hb
    rw [if_pos rfl] at hb0
    constructor
    · rintro ⟨k', v', h1, h2⟩
      rw [hb0] at h1
      cases h1
      dsimp only at h2
      rw [List.getElem?_set] at h2
      split at h2
      · rename_i hi'
        injection h2 with h2
        injection h2 with h2
        exact .inl ⟨rfl, hi'.symm, h2.symm⟩
      · exact .inr ⟨k, v', hk, h2⟩
    · rintro (⟨_, rfl, rfl⟩ | ⟨k', v', h1, h2⟩)
      · exact ⟨_, v, hb0, by simp [hi]⟩
      · rw [hk] at h1
        cases h1
        have hne : i ≠ i' := by rintro rfl; rw [hr] at h2; simp at h2
        exact ⟨_, v', hb0, by simp [List.getElem?_set, hne, h2]⟩
  · rw [if_neg hb] at hb0
    simp [At, hb0, hb]

theorem inv_birth {P : Prog} {m : Mem} (h : Inv P m) {b i : Nat} {k : Block} (hk : m.blocks b = some k)
    (hr : k.slots[i]? = some .raw) (v : Nat) : Inv P (birth b k i v m) := by
  have ha := at_birth (v := v) hk hr
  have hnot : ∀ t, Ev.ctor m.nextObj t ∉ m.log := fun t hm => Nat.lt_irrefl _ (h.ctor_lt _ t hm)
  have hal : ∀ id, Alive (birth b k i v m) id ↔ id = m.nextObj ∨ Alive m id := by
    intro id
    simp only [Alive, ha]
    constructor
    · rintro ⟨b', i', ⟨_, _, h⟩ | h⟩
      · exact .inl h
      · exact .inr ⟨b', i', h⟩
    · rintro (h | ⟨b', i', h⟩)
      · exact ⟨b, i, .inl ⟨rfl, rfl, h⟩⟩
      · exact ⟨b', i', .inr h⟩
  have hd : ∀ id, (birth b k i v m).log.count (.dtor id) = m.log.count (.dtor id) := by
    intro id; simp [birth, List.count_cons]
  constructor
  · intro b' k' i' id v' h1 h2
    simp only [birth, upd] at h1 ⊢
    by_cases hb : b' = b
    · subst hb
      simp only [if_true, Option.some.injEq] at h1
      subst h1
      simp only [List.getElem?_set] at h2
      split at h2
      · rename_i hi
        split at h2
        · simp only [Option.some.injEq, Slot.obj.injEq] at h2
          rw [h2.1]; simp
        · simp at h2
      · exact List.mem_cons_of_mem _ (h.at_ctor b' k i' id v' hk h2)
    · simp only [hb, if_false] at h1
      exact List.mem_cons_of_mem _ (h.at_ctor b' k' i' id v' h1 h2)
  · intro id hv
    rw [hd]
    rcases (hal id).1 hv with rfl | hv
    · rw [List.count_eq_zero]
      intro hm
      obtain ⟨t, ht⟩ := h.dtor_ctor _ hm
      exact hnot t ht
    · exact h.at_dtor id hv
  · intro id b1 i1 b2 i2 h1 h2
    rcases (ha ..).1 h1 with ⟨rfl, rfl, e⟩ | h1' <;> rcases (ha ..).1 h2 with ⟨rfl, rfl, e'⟩ | h2'
    · exact ⟨rfl, rfl⟩
    · exact absurd (h.at_lt h2') (by omega)
    · exact absurd (h.at_lt h1') (by omega)
    · exact h.at_unique id _ _ _ _ h1' h2'
  · intro id t hm
    simp only [birth, List.mem_cons, Ev.ctor.injEq] at hm ⊢
    rcases hm with ⟨rfl, _⟩ | hm
    · omega
    · have := h.ctor_lt id t hm; omega
  · intro id t
    simp only [birth, List.count_cons]
    split
    · rename_i he
      have he : Ev.ctor m.nextObj k.ty = Ev.ctor id t := by simpa using he
      injection he with e1 e2
      have : m.log.count (.ctor id t) = 0 := by
        rw [List.count_eq_zero, ← e1]; exact hnot t
      omega
    · exact h.ctor_one id t
  · intro id t t' h1 h2
    simp only [birth, List.mem_cons, Ev.ctor.injEq] at h1 h2
    rcases h1 with ⟨e, e1⟩ | h1 <;> rcases h2 with ⟨e', e2⟩ | h2
    · rw [e1, e2]
    · exact absurd (e ▸ h2) (hnot _)
    · exact absurd (e' ▸ h1) (hnot _)
    · exact h.ctor_type id t t' h1 h2
  · intro id hm
    simp only [birth, List.mem_cons, reduceCtorEq, false_or] at hm
    obtain ⟨t, ht⟩ := h.dtor_ctor id hm
    exact ⟨t, List.mem_cons_of_mem _ ht⟩
  · intro id t hm
    rw [hd, hal]
    simp only [birth, List.mem_cons, Ev.ctor.injEq] at hm
    rcases hm with ⟨e, _⟩ | hm
    · exact .inl (.inl e)
    · rcases h.dead id t hm with h | h
      · exact .inl (.inr h)
      · exact .inr h
  · intro id hm
    simp only [birth, List.mem_cons, reduceCtorEq, false_or] at hm
    exact h.lost id hm
  · intro b' hb'
    simp only [birth, upd] at hb' ⊢
    by_cases e : b' = b
    · subst e; exact h.block_lt b' (by rw [hk]; simp)
    · exact h.block_lt b' (by simpa [e] using hb')

/-- a new block without objects -/
theorem inv_alloc {P : Prog} {m : Mem} (h : Inv P m) (t n : Nat) (heap : Bool) (news : Nat) :
    Inv P { m with blocks := upd m.blocks m.nextBlock (some ⟨t, heap, List.replicate n .raw⟩), nextBlock := m.nextBlock + 1,
                   news := news } := by
  have hf : m.blocks m.nextBlock = none := by
    cases e : m.blocks m.nextBlock with
    | none => rfl
    | some k => exact absurd (h.block_lt m.nextBlock (by rw [e]; simp)) (Nat.lt_irrefl _)
  generalize hm' : ({ m with blocks := upd m.blocks m.nextBlock (some ⟨t, heap, List.replicate n .raw⟩),
                             nextBlock := m.nextBlock + 1, news := news } : Mem) = m'
  have hl : m'.log = m.log := by rw [← hm']
  have hn : m'.nextObj = m.nextObj := by rw [← hm']
  have hb : ∀ b, m'.blocks b = if b = m.nextBlock then some ⟨t, heap, List.replicate n .raw⟩ else m.blocks b := by
    intro b; rw [← hm']; rfl
  have ha : ∀ id b i, At m' id b i ↔ At m id b i := by
    intro id b i
    simp only [At, hb]
    by_cases e : b = m.nextBlock
    · subst e
      simp only [if_true, hf, Option.some.injEq]
      constructor
      · rintro ⟨k, v, rfl, h2⟩
        dsimp only at h2
        rw [List.getElem?_replicate] at h2
        split at h2 <;> simp at h2
      · rintro ⟨_, _, h, _⟩; simp at h
    · simp [e]
  have hv : ∀ id, Alive m' id ↔ Alive m id := by simp [Alive, ha]
  constructor
  · intro b k i id v h1 h2
    have : At m id b i := (ha id b i).1 ⟨k, v, h1, h2⟩
    obtain ⟨k', v', h3, h4⟩ := this
    have hne : b ≠ m.nextBlock := by rintro rfl; rw [hf] at h3; simp at h3
    rw [hb, if_neg hne, h3] at h1
    cases h1
    rw [hl]
    exact h.at_ctor b k i id v' h3 h4
  · intro id h1; rw [hl]; exact h.at_dtor id ((hv id).1 h1)
  · intro id b i b' i' h1 h2; exact h.at_unique id b i b' i' ((ha _ _ _).1 h1) ((ha _ _ _).1 h2)
  · intro id t h1; rw [hn]; exact h.ctor_lt id t (hl ▸ h1)
  · intro id t; rw [hl]; exact h.ctor_one id t
  · intro id t t' h1 h2; exact h.ctor_type id t t' (hl ▸ h1) (hl ▸ h2)
  · intro id h1; rw [hl]; exact h.dtor_ctor id (hl ▸ h1)
  · intro id t h1; rw [hl, hv]; exact h.dead id t (hl ▸ h1)
  · intro id; rw [hl]; exact h.lost id
  · intro b hb'
    rw [hb] at hb'
    have hnb : m'.nextBlock = m.nextBlock + 1 := by rw [← hm']
    by_cases e : b = m.nextBlock
    · omega
    · have := h.block_lt b (by simpa [e] using hb'); omega

/-- the object in the slot is destroyed -/
def death (b : Nat) (k : Block) (i id : Nat) (m : Mem) : Mem :=
  { m with blocks := upd m.blocks b (some { k with slots := k.slots.set i .raw }), log := .dtor id :: m.log }

theorem at_death {P : Prog} {m : Mem} (h : Inv P m) {b i v d : Nat} {k : Block} (hk : m.blocks b = some k)
    (hr : k.slots[i]? = some (.obj d v)) (id b' i' : Nat) :
    At (death b k i d m) id b' i' ↔ id ≠ d ∧ At m id b' i' := by
  have hi : i < k.slots.length := by
    rw [List.getElem?_eq_some_iff] at hr; exact hr.1
  have hb0 : (death b k i d m).blocks b' =
      if b' = b then some { k with slots := k.slots.set i .raw } else m.blocks b' := rfl
  have hd : At m d b i := ⟨k, v, hk, hr⟩
  by_cases hb : b' = b
  · subst hb
    rw [if_pos rfl] at hb0
    constructor
    · rintro ⟨k', v', h1, h2⟩
      rw [hb0] at h1
      cases h1
      dsimp only at h2
      rw [List.getElem?_set] at h2
      split at h2
      · simp [hi] at h2
      · rename_i hne
        have ha : At m id b' i' := ⟨k, v', hk, h2⟩
        refine ⟨?_, ha⟩
        rintro rfl
        exact hne (h.at_unique _ _ _ _ _ hd ha).2
    · rintro ⟨hne, k', v', h1, h2⟩
      rw [hk] at h1
      cases h1
      have hne' : i ≠ i' := by rintro rfl; rw [hr] at h2; simp [Ne.symm hne] at h2
      exact ⟨_, v', hb0, by simp [List.getElem?_set, hne', h2]⟩
  · rw [if_neg hb] at hb0
    constructor
    · rintro ⟨k', v', h1, h2⟩
      rw [hb0] at h1
      have ha : At m id b' i' := ⟨k', v', h1, h2⟩
      refine ⟨?_, ha⟩
      rintro rfl
      exact hb (h.at_unique _ _ _ _ _ hd ha).1.symm
    · rintro ⟨_, k', v', h1, h2⟩
      exact ⟨k', v', by rw [hb0]; exact h1, h2⟩

theorem inv_death {P : Prog} {m : Mem} (h : Inv P m) {b i v d : Nat} {k : Block} (hk : m.blocks b = some k)
    (hr : k.slots[i]? = some (.obj d v)) : Inv P (death b k i d m) := by
  have ha := at_death h hk hr
  have hd : At m d b i := ⟨k, v, hk, hr⟩
  have hal : ∀ id, Alive (death b k i d m) id ↔ id ≠ d ∧ Alive m id := by
    intro id
    simp only [Alive, ha]
    exact ⟨fun ⟨b, i, h1, h2⟩ => ⟨h1, b, i, h2⟩, fun ⟨h1, b, i, h2⟩ => ⟨b, i, h1, h2⟩⟩
  have hc : ∀ id t, Ev.ctor id t ∈ (death b k i d m).log ↔ Ev.ctor id t ∈ m.log := by simp [death]
  have hd0 : m.log.count (.dtor d) = 0 := h.at_dtor d ⟨b, i, hd⟩
  have hdc : ∀ id, id ≠ d → (death b k i d m).log.count (.dtor id) = m.log.count (.dtor id) := by
    intro id hne
    simp [death, List.count_cons, Ne.symm hne]
  constructor
  · intro b' k' i' id v' h1 h2
    have hat : At (death b k i d m) id b' i' := ⟨k', v', h1, h2⟩
    obtain ⟨_, k2, v2, h3, h4⟩ := (ha _ _ _).1 hat
    have := h.at_ctor b' k2 i' id v2 h3 h4
    have e : k'.ty = k2.ty := by
      simp only [death, upd] at h1
      by_cases hb : b' = b
      · subst hb
        rw [hk] at h3
        cases h3
        simp only [if_true, Option.some.injEq] at h1
        rw [← h1]
      · simp only [hb, if_false, h3, Option.some.injEq] at h1
        rw [h1]
    rw [hc, e]
    exact this
  · intro id hv
    obtain ⟨hne, hv⟩ := (hal id).1 hv
    rw [hdc id hne]
    exact h.at_dtor id hv
  · intro id b1 i1 b2 i2 h1 h2
    exact h.at_unique id _ _ _ _ ((ha _ _ _).1 h1).2 ((ha _ _ _).1 h2).2
  · intro id t h1; exact h.ctor_lt id t ((hc _ _).1 h1)
  · intro id t
    have : (death b k i d m).log.count (.ctor id t) = m.log.count (.ctor id t) := by simp [death, List.count_cons]
    rw [this]; exact h.ctor_one id t
  · intro id t t' h1 h2; exact h.ctor_type id t t' ((hc _ _).1 h1) ((hc _ _).1 h2)
  · intro id h1
    simp only [hc]
    simp only [death, List.mem_cons, Ev.dtor.injEq] at h1
    rcases h1 with rfl | h1
    · exact ⟨_, h.at_ctor b k i _ v hk hr⟩
    · exact h.dtor_ctor id h1
  · intro id t h1
    rw [hc] at h1
    by_cases e : id = d
    · subst e
      refine .inr (.inl ?_)
      simp [death, List.count_cons, hd0]
    · rw [hal, hdc id e]
      rcases h.dead id t h1 with h1 | h1
      · exact .inl ⟨e, h1⟩
      · exact .inr h1
  · intro id hm
    simp only [death, List.mem_cons, reduceCtorEq, false_or] at hm
    exact h.lost id hm
  · intro b' hb'
    simp only [death, upd] at hb' ⊢
    by_cases e : b' = b
    · subst e; exact h.block_lt b' (by rw [hk]; simp)
    · exact h.block_lt b' (by simpa [e] using hb')

/-- the value of an object changes -/
theorem inv_write {P : Prog} {m : Mem} (h : Inv P m) {b i v v' d : Nat} {k : Block} (hk : m.blocks b = some k)
    (hr : k.slots[i]? = some (.obj d v)) : Inv P (putSlot b i (.obj d v') m) := by
  have hi : i < k.slots.length := by
    rw [List.getElem?_eq_some_iff] at hr; exact hr.1
  have e0 : putSlot b i (.obj d v') m =
      { m with blocks := upd m.blocks b (some { k with slots := k.slots.set i (.obj d v') }) } := by
    simp only [putSlot, hk]
  rw [e0]
  generalize hm' : ({ m with blocks := upd m.blocks b (some { k with slots := k.slots.set i (.obj d v') }) } : Mem) = m'
  have hl : m'.log = m.log := by rw [← hm']
  have hn : m'.nextObj = m.nextObj := by rw [← hm']
  have hb : ∀ b', m'.blocks b' = if b' = b then some { k with slots := k.slots.set i (.obj d v') } else m.blocks b' := by
    intro b; rw [← hm']; rfl
  have ha : ∀ id b' i', At m' id b' i' ↔ At m id b' i' := by
    intro id b' i'
    have hb0 := hb b'
    by_cases e : b' = b
    · subst e
      rw [if_pos rfl] at hb0
      constructor
      · rintro ⟨k', u, h1, h2⟩
        rw [hb0] at h1
        cases h1
        dsimp only at h2
        rw [List.getElem?_set] at h2
        split at h2
        · rename_i hi'
          injection h2 with h2
          injection h2 with h2
          subst h2 hi'
          exact ⟨k, v, hk, hr⟩
        · exact ⟨k, u, hk, h2⟩
      · rintro ⟨k', u, h1, h2⟩
        rw [hk] at h1
        cases h1
        by_cases hi' : i = i'
        · subst hi'
          rw [hr] at h2
          injection h2 with h2
          injection h2 with h2
          subst h2
          exact ⟨_, v', hb0, by simp [hi]⟩
        · exact ⟨_, u, hb0, by simp [List.getElem?_set, hi', h2]⟩
    · simp [At, hb0, e]
  have hv : ∀ id, Alive m' id ↔ Alive m id := by simp [Alive, ha]
  constructor
  · intro b' k' i' id u h1 h2
    obtain ⟨k2, v2, h3, h4⟩ := (ha _ _ _).1 ⟨k', u, h1, h2⟩
    have := h.at_ctor b' k2 i' id v2 h3 h4
    have e : k'.ty = k2.ty := by
      rw [hb] at h1
      by_cases hb' : b' = b
      · subst hb'
        rw [hk] at h3
        cases h3
        simp only [if_true, Option.some.injEq] at h1
        rw [← h1]
      · simp only [hb', if_false, h3, Option.some.injEq] at h1
        rw [h1]
    rw [hl, e]
    exact this
  · intro id h1; rw [hl]; exact h.at_dtor id ((hv id).1 h1)
  · intro id b i b' i' h1 h2; exact h.at_unique id b i b' i' ((ha _ _ _).1 h1) ((ha _ _ _).1 h2)
  · intro id t h1; rw [hn]; exact h.ctor_lt id t (hl ▸ h1)
  · intro id t; rw [hl]; exact h.ctor_one id t
  · intro id t t' h1 h2; exact h.ctor_type id t t' (hl ▸ h1) (hl ▸ h2)
  · intro id h1; rw [hl]; exact h.dtor_ctor id (hl ▸ h1)
  · intro id t h1; rw [hl, hv]; exact h.dead id t (hl ▸ h1)
  · intro id; rw [hl]; exact h.lost id
  · intro b' hb'
    rw [hb] at hb'
    have hnb : m'.nextBlock = m.nextBlock := by rw [← hm']
    rw [hnb]
    by_cases e : b' = b
    · subst e; exact h.block_lt b' (by rw [hk]; simp)
    · exact h.block_lt b' (by simpa [e] using hb')

/-- storage without objects that need a destructor is released -/
theorem inv_free {P : Prog} {m : Mem} (h : Inv P m) {b : Nat} {k : Block} (hk : m.blocks b = some k)
    (hr : (P.ty k.ty).trivDtor = true ∨ ∀ i, i < k.slots.length → k.slots[i]? = some .raw) :
    Inv P { m with blocks := upd m.blocks b none } := by
  generalize hm' : ({ m with blocks := upd m.blocks b none } : Mem) = m'
  have hl : m'.log = m.log := by rw [← hm']
  have hn : m'.nextObj = m.nextObj := by rw [← hm']
  have hb : ∀ b', m'.blocks b' = if b' = b then none else m.blocks b' := by
    intro b; rw [← hm']; rfl
  have ha : ∀ id b' i', At m' id b' i' ↔ b' ≠ b ∧ At m id b' i' := by
    intro id b' i'
    have hb0 := hb b'
    by_cases e : b' = b
    · subst e; simp [At, hb0]
    · simp [At, hb0, e]
  have hv : ∀ id, Alive m' id → Alive m id := fun id ⟨b', i', h⟩ => ⟨b', i', ((ha _ _ _).1 h).2⟩
  constructor
  · intro b' k' i' id u h1 h2
    rw [hb] at h1
    split at h1
    · simp at h1
    · rw [hl]; exact h.at_ctor b' k' i' id u h1 h2
  · intro id h1; rw [hl]; exact h.at_dtor id (hv id h1)
  · intro id b i b' i' h1 h2; exact h.at_unique id b i b' i' ((ha _ _ _).1 h1).2 ((ha _ _ _).1 h2).2
  · intro id t h1; rw [hn]; exact h.ctor_lt id t (hl ▸ h1)
  · intro id t; rw [hl]; exact h.ctor_one id t
  · intro id t t' h1 h2; exact h.ctor_type id t t' (hl ▸ h1) (hl ▸ h2)
  · intro id h1; rw [hl]; exact h.dtor_ctor id (hl ▸ h1)
  · intro id t h1
    rw [hl] at h1 ⊢
    rcases h.dead id t h1 with ⟨b', i', hat⟩ | h2
    · by_cases e : b' = b
      · subst e
        obtain ⟨k', v, h3, h4⟩ := hat
        rw [hk] at h3
        cases h3
        rcases hr with hr | hr
        · refine .inr (.inr ⟨h.at_dtor id ⟨b', i', k, v, hk, h4⟩, ?_⟩)
          rw [h.ctor_type id t k.ty h1 (h.at_ctor b' k i' id v hk h4)]
          exact hr
        · have hlt : i' < k.slots.length := by
            rw [List.getElem?_eq_some_iff] at h4; exact h4.1
          rw [hr i' hlt] at h4
          simp at h4
      · exact .inl ⟨b', i', (ha _ _ _).2 ⟨e, hat⟩⟩
    · exact .inr h2
  · intro id; rw [hl]; exact h.lost id
  · intro b' hb'
    rw [hb] at hb'
    have hnb : m'.nextBlock = m.nextBlock := by rw [← hm']
    rw [hnb]
    by_cases e : b' = b
    · subst e; exact h.block_lt b' (by rw [hk]; simp)
    · exact h.block_lt b' (by simpa [e] using hb')

end Rtti.Mk
