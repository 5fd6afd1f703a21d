import Verif.Lemmas.ConstructLoop
/-
`construct` and `destruct` as a whole, and histories of calls (C57).
-/
set_option autoImplicit false
namespace Rtti.Mk
open VMem (Out)

theorem sameObjects_refl (k : Block) : SameObjects k k := ⟨rfl, rfl, rfl, fun _ _ => Iff.rfl⟩

theorem Complete.values {P : Prog} {m : Mem} {t b : Nat} (h : Complete P m t b) :
    ∃ vals, Values m b vals ∧ vals.length = (P.ty t).count := by
  obtain ⟨k, hk, _, hl, hs⟩ := h
  refine ⟨k.slots.map (fun | .obj _ v => v | .raw => 0), ⟨k, hk, by simp, ?_⟩, by simp [hl]⟩
  intro i v hv
  have hi : i < k.slots.length := by
    rw [List.getElem?_eq_some_iff] at hv
    simpa using hv.1
  obtain ⟨id, u, hu⟩ := hs i hi
  refine ⟨id, ?_⟩
  rw [List.getElem?_map, hu] at hv
  simp at hv
  rw [hu, hv]

section
variable {P : Prog} {m : Mem}

/-- how `construct` may end -/
def ConstructPost (P : Prog) (t : Nat) (mv : Bool) (src : Option Nat) (vals : Option (List Nat)) (m : Mem) :
    Out (Option Nat) × Mem → Prop
  | (.ok r, m') => r = some m.nextBlock ∧ Made P t mv src vals m m' ∧ Inv P m'
  | (.threw, m') => Inv P m' ∧ (∀ b, b ≠ m.nextBlock → m'.blocks b = m.blocks b) ∧
      ((P.oom m.news = true ∧ m'.nextBlock = m.nextBlock ∧ m'.blocks = m.blocks) ∨
       (P.oom m.news = false ∧ m'.nextBlock = m.nextBlock + 1 ∧ ∃ ss, m'.blocks m.nextBlock = some ⟨t, true, ss⟩ ∧
        ((P.ty t).array = false → ss = List.replicate (P.ty t).count .raw)))
  | (.terminated, _) => ¬ P.Honest
  | (.ub, _) => (P.ty t).overAligned = true ∨ (src ≠ none ∧ (P.ty t).array = true ∧ (P.ty t).trivAssign = false)

theorem construct_post (hwf : P.WF) (h : Inv P m) {t : Nat} {src : Option Nat} {vals : Option (List Nat)} (mv : Bool)
    (hl : LegalSource P m t src) (hv : SourceVals m src vals) :
    ConstructPost P t mv src vals m (construct P (.type t) src mv m) := by
  have hf : m.blocks m.nextBlock = none := by
    cases e : m.blocks m.nextBlock with
    | none => rfl
    | some k => exact absurd (h.block_lt m.nextBlock (by rw [e]; simp)) (Nat.lt_irrefl _)
  unfold construct
  cases hoom : P.oom m.news with
  | true =>
    have e : allocate P (.type t) m = (.threw, { m with news := m.news + 1 }) := by
      simp [allocate, tableAllocate, M.bind, hoom]
    simp only [M.bind, e]
    exact ⟨h.congr rfl rfl rfl (Nat.le_refl _), fun _ _ => rfl, .inl ⟨hoom, rfl, rfl⟩⟩
  | false =>
    generalize hm1 : ({ m with blocks := upd m.blocks m.nextBlock (some ⟨t, true, List.replicate (P.ty t).count .raw⟩),
                               nextBlock := m.nextBlock + 1, news := m.news + 1 } : Mem) = m1
    have e : allocate P (.type t) m = (.ok (some m.nextBlock), m1) := by
      simp [allocate, tableAllocate, M.bind, M.pure, hoom, hm1]
    have h1 : Inv P m1 := by rw [← hm1]; exact inv_alloc h t _ true _
    have hb1 : m1.blocks m.nextBlock = some ⟨t, true, List.replicate (P.ty t).count .raw⟩ := by simp [← hm1, upd]
    have ho1 : ∀ b, b ≠ m.nextBlock → m1.blocks b = m.blocks b := by intro b hb; simp [← hm1, upd, hb]
    have hn1 : m1.nextBlock = m.nextBlock + 1 := by rw [← hm1]
    have hob1 : m1.nextObj = m.nextObj := by rw [← hm1]
    simp only [M.bind, e]
    cases src with
    | none =>
      cases vals with
      | some _ => simp [SourceVals] at hv
      | none =>
        have key := tableDefault_post hwf h1 hb1
        simp only [defaultConstruct]
        generalize tableDefault P t m.nextBlock m1 = r at key
        obtain ⟨r, m'⟩ := r
        cases r with
        | ub => exact .inl (by simpa [Post] using key)
        | terminated => exact key
        | threw =>
          obtain ⟨hi, hob, ss, hss, harr⟩ := key
          refine ⟨hi, fun b hb => by rw [hob.others b hb, ho1 b hb], .inr ⟨hoom, by rw [hob.next, hn1], ss, hss, harr⟩⟩
        | ok =>
          obtain ⟨⟨hob, hblk⟩, hi, hn, _⟩ := key
          refine ⟨rfl, ⟨hf, ?_, by simp, fun b hb _ => by rw [hob.others b hb, ho1 b hb], by rw [hn, hn1]⟩, hi⟩
          simp only [true_and, newVals, ← hob1]
          exact hblk
    | some s =>
      cases vals with
      | none => simp [SourceVals] at hv
      | some vs =>
        obtain ⟨ks, hks, hkl, hkv⟩ : Values m s vs := hv
        obtain ⟨ks', hks', hkt, hkc, hko⟩ : Complete P m t s := hl
        rw [hks] at hks'
        cases hks'
        have hsb : s ≠ m.nextBlock := by rintro rfl; rw [hf] at hks; simp at hks
        have hks1 : m1.blocks s = some ks := by rw [ho1 s hsb, hks]
        have hlen : vs.length = (P.ty t).count := by rw [← hkl, hkc]
        have copyCase : ∀ q : Bool, (q = true → moves P t mv = false) → q = true →
            ConstructPost P t mv (some s) (some vs) m
              (M.bind (tableCopy P t s m.nextBlock) (fun _ => M.pure (some m.nextBlock)) m1) := by
          intro q hq hq'
          have hmv := hq hq'
          have key := tableCopy_post hwf h1 hb1 hsb hks1 hkt hlen hkv
          simp only [M.bind]
          generalize tableCopy P t s m.nextBlock m1 = r at key
          obtain ⟨r, m'⟩ := r
          cases r with
          | ub => simpa [Post, ConstructPost] using key
          | terminated => exact key
          | threw =>
            obtain ⟨hi, hob, ss, hss, harr⟩ := key
            refine ⟨hi, fun b hb => by rw [hob.others b hb, ho1 b hb], .inr ⟨hoom, by rw [hob.next, hn1], ss, hss, harr⟩⟩
          | ok =>
            obtain ⟨⟨hob, hblk⟩, hi, hn, _⟩ := key
            refine ⟨rfl, ⟨hf, ?_, ?_, fun b hb _ => by rw [hob.others b hb, ho1 b hb], by rw [hn, hn1]⟩, hi⟩
            · simp only [reduceCtorEq, false_and, if_false, newVals, ← hob1, hmv]
              exact hblk
            · rintro _ _ ⟨⟩ ⟨⟩
              have : m'.blocks s = some ks := by rw [hob.others s hsb, hks1]
              refine ⟨ks, ks, hks, this, sameObjects_refl ks, ks, this, ?_, ?_⟩
              · simp only [remains]; split <;> simp [hkl]
              · have : remains P t mv vs = vs := by simp [remains, hmv]
                rw [this]; exact hkv
        cases hm : moves P t mv with
        | false =>
          have := copyCase true (fun _ => hm) rfl
          cases mv with
          | false => simpa only [if_true, copyConstruct, M.bind] using this
          | true =>
            have hab : (P.ty t).able .move = false := by simpa [moves] using hm
            simpa only [Bool.true_eq_false, if_false, moveOrCopy, tableMoveOrCopy, hab, Bool.false_eq_true, M.bind] using this
        | true =>
          have hmv : mv = true := by simp [moves] at hm; exact hm.1
          have hab : (P.ty t).able .move = true := by simp [moves] at hm; exact hm.2
          subst hmv
          have key := tableMove_post hwf h1 hb1 hsb hks1 hkt hlen hkv
          simp only [Bool.true_eq_false, if_false, moveOrCopy, tableMoveOrCopy, hab, if_true]
          generalize tableMove P t s m.nextBlock m1 = r at key
          obtain ⟨r, m'⟩ := r
          cases r with
          | ub => simpa [Post, ConstructPost] using key
          | terminated => exact key
          | threw =>
            obtain ⟨hi, hob, ss, hss, harr⟩ := key
            refine ⟨hi, fun b hb => by rw [hob.others b hb, ho1 b hb], .inr ⟨hoom, by rw [hob.next, hn1], ss, hss, harr⟩⟩
          | ok =>
            obtain ⟨⟨hoth, ⟨ks', hks', hleft⟩, hblk⟩, hi, hn, _⟩ := key
            refine ⟨rfl, ⟨hf, ?_, ?_, ?_, by rw [hn, hn1]⟩, hi⟩
            · simp only [reduceCtorEq, false_and, if_false, newVals, ← hob1, hm, if_true]
              exact hblk
            · rintro _ _ ⟨⟩ ⟨⟩
              refine ⟨ks, ks', hks, hks', ?_, ks', hks', ?_, ?_⟩
              · rcases hleft with ⟨_, rfl⟩ | ⟨_, id, v, rfl, hid, rfl⟩
                · exact sameObjects_refl _
                · have hlt : 0 < ks.slots.length := by
                    rw [List.getElem?_eq_some_iff] at hid; exact hid.1
                  refine ⟨rfl, rfl, by simp, ?_⟩
                  intro i j
                  dsimp only
                  rw [List.getElem?_set]
                  by_cases hi0 : 0 = i
                  · subst hi0
                    rw [if_pos rfl, hid]
                    simp only [hlt, if_true]
                    constructor <;> (rintro ⟨v', h⟩; injection h with h; injection h with h; subst h; exact ⟨_, rfl⟩)
                  · simp [hi0]
              · rcases hleft with ⟨ha, rfl⟩ | ⟨ha, id, v, rfl, hid, rfl⟩
                · simp [remains, ha, hkl]
                · simp only [remains, ha, hm, List.length_set, hkl]
                  simp
              · rcases hleft with ⟨ha, rfl⟩ | ⟨ha, id, v, rfl, hid, rfl⟩
                · simpa [remains, ha] using hkv
                · have hlt : 0 < ks.slots.length := by
                    rw [List.getElem?_eq_some_iff] at hid; exact hid.1
                  intro i u hu
                  simp only [remains, ha, hm, Bool.false_eq_true, if_false, if_true, List.map_cons, List.map_nil] at hu
                  cases i with
                  | zero =>
                    simp only [List.getElem?_cons_zero, Option.some.injEq] at hu
                    subst hu
                    exact ⟨id, by simp [hlt]⟩
                  | succ i => simp at hu
            · intro b hb hsrc
              rw [hoth b hb (by rintro rfl; exact hsrc rfl), ho1 b hb]

/-- a block the program may give back -/
structure Whole (P : Prog) (k : Block) : Prop where
  heap : k.heap = true
  len : k.slots.length = (P.ty k.ty).count
  objs : (P.ty k.ty).trivDtor = true ∨ ∀ i, i < k.slots.length → ∃ id v, k.slots[i]? = some (Slot.obj id v)

theorem lostIn_trivial (ss : List Slot) : lostIn true ss = [] := by
  induction ss with
  | nil => rfl
  | cons x ss ih => cases x <;> simp [lostIn, ih]

theorem lostIn_raw (b : Bool) (ss : List Slot) (h : ∀ i, i < ss.length → ss[i]? = some Slot.raw) : lostIn b ss = [] := by
  induction ss with
  | nil => rfl
  | cons x ss ih =>
    have hx := h 0 (by simp)
    simp only [List.getElem?_cons_zero, Option.some.injEq] at hx
    subst hx
    exact ih fun i hi => by simpa using h (i + 1) (by simpa using hi)

theorem destruct_post (h : Inv P m) {b : Nat} {k : Block} (hk : m.blocks b = some k) (hw : Whole P k) :
    ∃ m', destruct P (.type k.ty) (some b) m = (.ok (), m') ∧ Inv P m' ∧ m'.blocks b = none ∧
      (∀ b', b' ≠ b → m'.blocks b' = m.blocks b') ∧ m'.nextBlock = m.nextBlock ∧ ∀ x ∈ m.log, x ∈ m'.log := by
  have e0 : hasType k.ty b m = (.ok (), m) := by simp [hasType, hk]
  have free : ∀ {m1 : Mem} {k1 : Block}, Inv P m1 → m1.blocks b = some k1 → k1.heap = true → k1.ty = k.ty →
      ((P.ty k1.ty).trivDtor = true ∨ ∀ i, i < k1.slots.length → k1.slots[i]? = some Slot.raw) →
      tableDeallocate P b m1 = (.ok (), { m1 with blocks := upd m1.blocks b none }) := by
    intro m1 k1 _ hb hh _ hr
    have : lostIn (P.ty k1.ty).trivDtor k1.slots = [] := by
      rcases hr with hr | hr
      · rw [hr]; exact lostIn_trivial _
      · exact lostIn_raw _ _ hr
    simp [tableDeallocate, hb, hh, this]
  cases htr : (P.ty k.ty).trivDtor with
  | true =>
    refine ⟨{ m with blocks := upd m.blocks b none }, ?_, inv_free h hk (.inl htr), by simp [upd], ?_, rfl, fun _ hx => hx⟩
    · simp [destruct, destroy, tableDestroy, deallocate, M.bind, M.pure, htr, free h hk hw.heap rfl (.inl htr)]
    · intro b' hb'; simp [upd, hb']
  | false =>
    have hobj := hw.objs.resolve_left (by rw [htr]; simp)
    obtain ⟨m1, k1, e1, h1, hob, hb1, ht1, hh1, hraw, hgrow⟩ := destroyLoop_spec P (P.ty k.ty).count h (i := 0) hk
      (by rw [hw.len]; omega) (fun x _ hx => hobj x hx) (by simp)
    refine ⟨{ m1 with blocks := upd m1.blocks b none }, ?_, inv_free h1 hb1 (.inr hraw), by simp [upd], ?_, hob.next, hgrow⟩
    · have := free h1 hb1 (by rw [hh1]; exact hw.heap) ht1 (.inr hraw)
      simp only [destruct, destroy, tableDestroy, deallocate, M.bind, htr, Bool.false_eq_true, if_false, e0, e1, this]
    · intro b' hb'
      simp only [upd, hb', if_false]
      exact hob.others b' hb'

theorem ownLoop_inv {t b : Nat} (vals : List Nat) :
    ∀ {m : Mem} (_ : Inv P m) {i : Nat} {k : Block} {pre : List Slot} (_ : m.blocks b = some k) (_ : k.ty = t)
      (_ : k.slots = pre ++ List.replicate vals.length .raw) (_ : pre.length = i),
    Inv P (ownLoop t b i vals m) ∧ OnlyBlock m (ownLoop t b i vals m) b ∧
      ∃ ss, (ownLoop t b i vals m).blocks b = some { k with slots := ss } := by
  induction vals with
  | nil => intro m h i k pre hk _ _ _; exact ⟨h, .refl _ _, k.slots, hk⟩
  | cons v vals ih =>
    intro m h i k pre hk ht hs hi
    have hs' : k.slots = pre ++ .raw :: List.replicate vals.length .raw := by rw [hs, List.length_cons, List.replicate_succ]
    have hr : k.slots[i]? = some .raw := by rw [hs']; exact get_mid _ _ _ _ hi
    have e2 : putSlot b i (.obj m.nextObj v) { m with nextObj := m.nextObj + 1, log := .ctor m.nextObj t :: m.log } =
        birth b k i v m := by
      simp [putSlot, hk, birth, ht]
    have hb : (birth b k i v m).blocks b = some { k with slots := pre ++ .obj m.nextObj v :: List.replicate vals.length .raw } := by
      simp [birth, upd, hs', set_mid _ _ _ _ _ hi]
    obtain ⟨h1, h2, ss, h3⟩ := ih (inv_birth h hk hr v) (i := i + 1) (pre := pre ++ [.obj m.nextObj v]) hb ht (by simp) (by simp [hi])
    simp only [ownLoop, e2]
    refine ⟨h1, OnlyBlock.trans (m' := birth b k i v m) ⟨?_, rfl, rfl⟩ h2, ss, h3⟩
    intro b' hne; simp [birth, upd, hne]

end

/-- what every history keeps -/
structure HistInv (P : Prog) (m : Mem) (h l : List Nat) : Prop where
  inv : Inv P m
  heap : ∀ b, OnHeap m b ↔ b ∈ h ∨ b ∈ l
  nodup : (h ++ l).Nodup
  whole : ∀ b ∈ h, ∃ k, m.blocks b = some k ∧ Whole P k

theorem HistInv.lt {P : Prog} {m : Mem} {h l : List Nat} (i : HistInv P m h l) {b : Nat} (hb : b ∈ h ∨ b ∈ l) :
    b < m.nextBlock := by
  obtain ⟨k, hk, _⟩ := (i.heap b).2 hb
  exact i.inv.block_lt b (by rw [hk]; simp)

theorem onHeap_congr {m m' : Mem} {b : Nat} (h : m'.blocks b = m.blocks b) : OnHeap m' b ↔ OnHeap m b := by
  simp [OnHeap, h]

theorem Whole.same {P : Prog} {k k' : Block} (h : Whole P k) (s : SameObjects k k') : Whole P k' := by
  obtain ⟨h1, h2, h3, h4⟩ := s
  refine ⟨by rw [h2]; exact h.heap, by rw [h3, h1]; exact h.len, ?_⟩
  rw [h1]
  refine h.objs.imp id fun ho i hi => ?_
  obtain ⟨id, v, hv⟩ := ho i (by rw [← h3]; exact hi)
  obtain ⟨v', hv'⟩ := (h4 i id).2 ⟨v, hv⟩
  exact ⟨id, v', hv'⟩

theorem LegalSource.vals {P : Prog} {m : Mem} {t : Nat} {src : Option Nat} (h : LegalSource P m t src) :
    ∃ vals, SourceVals m src vals ∧ (newVals P t true vals).length = (P.ty t).count := by
  cases src with
  | none => exact ⟨none, trivial, by simp [newVals]⟩
  | some s =>
    obtain ⟨vs, h1, h2⟩ := Complete.values h
    refine ⟨some vs, h1, ?_⟩
    simp only [newVals]
    split <;> simp [h2]

theorem Hist.inv {P : Prog} (hwf : P.WF) {m : Mem} {h l : List Nat} (hh : Hist P m h l) : HistInv P m h l := by
  induction hh with
  | start => exact ⟨inv_init P, by simp [OnHeap, Mem.init], by simp, by simp⟩
  | @own m h l t vals hlen _ ih =>
    have h1 := inv_alloc ih.inv t vals.length false m.news
    obtain ⟨h2, h3, ss, h4⟩ := ownLoop_inv (t := t) (b := m.nextBlock) vals h1 (i := 0) (pre := []) (k := ⟨t, false, List.replicate vals.length .raw⟩)
      (by simp [upd]) rfl rfl rfl
    have ho : ∀ b, b ≠ m.nextBlock → (Mk.own t vals m).blocks b = m.blocks b := by
      intro b hb
      refine (h3.others b hb).trans ?_
      simp [upd, hb]
    refine ⟨h2, ?_, ih.nodup, ?_⟩
    · intro b
      by_cases hb : b = m.nextBlock
      · subst hb
        constructor
        · rintro ⟨k, h5, h6⟩
          rw [show (Mk.own t vals m).blocks m.nextBlock = _ from h4] at h5
          cases h5
          simp at h6
        · intro h5; exact absurd (ih.lt h5) (Nat.lt_irrefl _)
      · rw [onHeap_congr (ho b hb)]; exact ih.heap b
    · intro b hb
      have : b ≠ m.nextBlock := by rintro rfl; exact absurd (ih.lt (.inl hb)) (Nat.lt_irrefl _)
      rw [ho b this]
      exact ih.whole b hb
  | @made m h l m' b t src mv _ hl e ih =>
    obtain ⟨vals, hv, _⟩ := hl.vals
    have key := construct_post hwf ih.inv mv hl hv
    rw [e] at key
    obtain ⟨hb, hm, hi⟩ := key
    cases hb
    have hother : ∀ b, b ≠ m.nextBlock → (OnHeap m' b ↔ OnHeap m b) := by
      intro b hb
      by_cases hs : src = some b
      · subst hs
        cases vals with
        | none => simp [SourceVals] at hv
        | some vs =>
          obtain ⟨ks, ks', h1, h2, h3, _⟩ := hm.source b vs rfl rfl
          simp [OnHeap, h1, h2, h3.2.1]
      · exact onHeap_congr (hm.others b hb hs)
    have hnot : m.nextBlock ∉ h ++ l := by
      intro hin
      exact absurd (ih.lt (List.mem_append.1 hin)) (Nat.lt_irrefl _)
    refine ⟨hi, ?_, ?_, ?_⟩
    · intro b
      by_cases hb : b = m.nextBlock
      · subst hb
        simp only [List.mem_cons, true_or, iff_true]
        exact ⟨_, hm.block, rfl⟩
      · rw [hother b hb, ih.heap]
        simp [hb]
    · rw [List.cons_append, List.nodup_cons]
      exact ⟨hnot, ih.nodup⟩
    · intro b hb
      by_cases hbn : b = m.nextBlock
      · subst hbn
        refine ⟨_, hm.block, rfl, ?_, ?_⟩
        · dsimp only
          split
          · simp
          · rw [newSlots_length]
            cases src with
            | none => cases vals with
              | none => simp [newVals]
              | some _ => simp [SourceVals] at hv
            | some s => cases vals with
              | none => simp [SourceVals] at hv
              | some vs =>
                obtain ⟨ks, h1, h2, _⟩ : Values m s vs := hv
                obtain ⟨ks', h1', _, h3, _⟩ : Complete P m t s := hl
                rw [h1] at h1'
                cases h1'
                simp only [newVals]
                split <;> simp [← h2, h3]
        · dsimp only
          split
          · rename_i hs
            exact .inl (hwf.triv t hs.2)
          · refine .inr fun i hi => ?_
            rw [newSlots_length] at hi
            exact ⟨_, _, newSlots_get _ _ i hi⟩
      · rw [List.mem_cons] at hb
        obtain ⟨k, hk, hw⟩ := ih.whole b (hb.resolve_left hbn)
        by_cases hs : src = some b
        · subst hs
          cases vals with
          | none => simp [SourceVals] at hv
          | some vs =>
            obtain ⟨ks, ks', h1, h2, h3, _⟩ := hm.source b vs rfl rfl
            rw [hk] at h1
            cases h1
            exact ⟨ks', h2, hw.same h3⟩
        · exact ⟨k, by rw [hm.others b hbn hs, hk], hw⟩
  | @failed m h l m' t src mv _ hl e ih =>
    obtain ⟨vals, hv, _⟩ := hl.vals
    have key := construct_post hwf ih.inv mv hl hv
    rw [e] at key
    obtain ⟨hi, ho, hc⟩ := key
    have hnot : m.nextBlock ∉ h ++ l := by
      intro hin
      exact absurd (ih.lt (List.mem_append.1 hin)) (Nat.lt_irrefl _)
    have hwhole : ∀ b ∈ h, ∃ k, m'.blocks b = some k ∧ Whole P k := by
      intro b hb
      rw [ho b (by rintro rfl; exact hnot (List.mem_append_left _ hb))]
      exact ih.whole b hb
    rcases hc with ⟨_, hn, hbl⟩ | ⟨_, hn, ss, hss, _⟩
    · rw [if_pos hn]
      exact ⟨hi, fun b => by rw [onHeap_congr (congrFun hbl b)]; exact ih.heap b, ih.nodup, hwhole⟩
    · rw [if_neg (by omega)]
      refine ⟨hi, ?_, ?_, hwhole⟩
      · intro b
        by_cases hb : b = m.nextBlock
        · subst hb
          simp only [List.mem_cons, true_or, or_true, iff_true]
          exact ⟨_, hss, rfl⟩
        · rw [onHeap_congr (ho b hb), ih.heap]
          simp [hb]
      · refine (List.perm_middle.nodup_iff).2 ?_
        rw [List.nodup_cons]
        exact ⟨hnot, ih.nodup⟩
  | @invalid m h l m' src mv _ e ih =>
    have : m' = m := by
      simp only [construct, allocate, M.bind, M.pure] at e
      cases src with
      | none => simp only [defaultConstruct, M.pure] at e; injection e with _ e; exact e.symm
      | some s =>
        cases mv <;> simp only [if_true, Bool.true_eq_false, if_false, copyConstruct, moveOrCopy, M.pure] at e <;>
          (injection e with _ e; exact e.symm)
    rw [this]
    exact ih
  | @gone m h l m' b k _ hb hk e ih =>
    obtain ⟨k', hk', hw⟩ := ih.whole b hb
    rw [hk] at hk'
    cases hk'
    obtain ⟨m2, e2, hi, hnone, ho, hn, _⟩ := destruct_post ih.inv hk hw
    rw [e] at e2
    injection e2 with _ e2
    subst e2
    have hnd := List.nodup_append.1 ih.nodup
    have hbl : b ∉ l := fun hl => hnd.2.2 b hb b hl rfl
    refine ⟨hi, ?_, ?_, ?_⟩
    · intro x
      rw [hnd.1.mem_erase_iff]
      by_cases hx : x = b
      · subst hx
        simp [OnHeap, hnone, hbl]
      · rw [onHeap_congr (ho x hx), ih.heap]
        simp [hx]
    · rw [List.nodup_append]
      refine ⟨hnd.1.erase _, hnd.2.1, fun x hx y hy => hnd.2.2 x (List.mem_of_mem_erase hx) y hy⟩
    · intro x hx
      rw [hnd.1.mem_erase_iff] at hx
      rw [ho x hx.1]
      exact ih.whole x hx.2
  | nothing _ e ih =>
    simp only [destruct, M.pure, Prod.mk.injEq, true_and] at e
    subst e
    exact ih

end Rtti.Mk
