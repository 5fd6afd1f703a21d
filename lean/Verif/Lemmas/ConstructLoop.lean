import Verif.Lemmas.Construct
/-
The loops of the function tables (C57).
-/
set_option autoImplicit false
namespace Rtti.Mk
open VMem (Out)

theorem newSlots_length (n : Nat) (vs : List Nat) : (newSlots n vs).length = vs.length := by
  induction vs generalizing n with
  | nil => rfl
  | cons v vs ih => simp [newSlots, ih]

theorem newSlots_get (n : Nat) (vs : List Nat) (i : Nat) (h : i < vs.length) :
    (newSlots n vs)[i]? = some (.obj (n + i) vs[i]) := by
  induction vs generalizing n i with
  | nil => simp at h
  | cons v vs ih =>
    cases i with
    | zero => rfl
    | succ i =>
      simp only [newSlots, List.getElem?_cons_succ, List.getElem_cons_succ]
      rw [ih (n + 1) i (by simpa using h)]
      congr 2
      omega

/-- `m'` is `m` with the block `b` changed -/
structure OnlyBlock (m m' : Mem) (b : Nat) : Prop where
  others : ∀ b', b' ≠ b → m'.blocks b' = m.blocks b'
  next : m'.nextBlock = m.nextBlock
  news : m'.news = m.news

theorem OnlyBlock.refl (m : Mem) (b : Nat) : OnlyBlock m m b := ⟨fun _ _ => rfl, rfl, rfl⟩

theorem OnlyBlock.trans {m m' m'' : Mem} {b : Nat} (h : OnlyBlock m m' b) (h' : OnlyBlock m' m'' b) : OnlyBlock m m'' b :=
  ⟨fun b' hb => (h'.others b' hb).trans (h.others b' hb), h'.next.trans h.next, h'.news.trans h.news⟩

theorem set_mid {A : Type} (pre : List A) (x y : A) (rest : List A) (i : Nat) (hi : pre.length = i) :
    (pre ++ x :: rest).set i y = pre ++ y :: rest := by
  subst hi
  simp

theorem get_mid {A : Type} (pre : List A) (x : A) (rest : List A) (i : Nat) (hi : pre.length = i) :
    (pre ++ x :: rest)[i]? = some x := by
  subst hi
  simp

/-- one constructor call -/
theorem construct1_cases (P : Prog) {m : Mem} (h : Inv P m) (kind : Kind) {t b i : Nat} (val : Nat) {k : Block} {pre rest : List Slot}
    (hk : m.blocks b = some k) (ht : k.ty = t) (hs : k.slots = pre ++ .raw :: rest) (hi : pre.length = i)
    (ho : (P.ty t).overAligned = false) :
    (P.throws kind t m.ticks = true ∧ ∃ m', construct1 P kind t b i val m = (.threw, m') ∧ Inv P m' ∧ OnlyBlock m m' b ∧
      m'.blocks = m.blocks ∧ m'.nextObj = m.nextObj) ∨
    (P.throws kind t m.ticks = false ∧ ∃ m', construct1 P kind t b i val m = (.ok (), m') ∧ Inv P m' ∧ OnlyBlock m m' b ∧
      m'.nextObj = m.nextObj + 1 ∧ m'.blocks b = some { k with slots := pre ++ .obj m.nextObj val :: rest }) := by
  have hr : k.slots[i]? = some .raw := by rw [hs]; exact get_mid _ _ _ _ hi
  simp only [construct1, ho, Bool.false_eq_true, if_false]
  cases hth : P.throws kind t m.ticks with
  | true =>
    refine .inl ⟨rfl, _, rfl, ?_, ?_, rfl, rfl⟩
    · exact h.congr rfl rfl rfl (Nat.le_refl _)
    · exact ⟨fun _ _ => rfl, rfl, rfl⟩
  | false =>
    refine .inr ⟨rfl, _, rfl, ?_, ?_, ?_, ?_⟩
    · have := inv_birth h hk hr val
      refine this.congr ?_ ?_ ?_ ?_ <;> simp [putSlot, hk, birth, ht]
    · refine ⟨?_, ?_, ?_⟩
      · intro b' hb; simp [putSlot, hk, upd, hb]
      · simp [putSlot, hk]
      · simp [putSlot, hk]
    · simp [putSlot, hk]
    · simp [putSlot, hk, upd, hs, set_mid _ _ _ _ _ hi]

theorem dfltLoop_spec (P : Prog) {t b : Nat} (ho : (P.ty t).overAligned = false) (n : Nat) :
    ∀ {m : Mem} (_ : Inv P m) {i : Nat} {k : Block} {pre : List Slot} (_ : m.blocks b = some k) (_ : k.ty = t)
      (_ : k.slots = pre ++ List.replicate n .raw) (_ : pre.length = i),
    ∃ j m', j ≤ n ∧ dfltLoop P t b i n m = (if j = n then .ok () else .threw, m') ∧ Inv P m' ∧ OnlyBlock m m' b ∧
      m'.blocks b = some { k with slots := pre ++ (newSlots m.nextObj (List.replicate j (P.ty t).dfltVal) ++
        List.replicate (n - j) .raw) } ∧
      ((∀ x, P.throws .dflt t x = false) → j = n) := by
  induction n with
  | zero =>
    intro m h i k pre hk _ hs _
    refine ⟨0, m, Nat.le_refl _, rfl, h, .refl _ _, ?_, fun _ => rfl⟩
    rw [hk]
    cases k
    simp_all [newSlots]
  | succ n ih =>
    intro m h i k pre hk ht hs hi
    have hs' : k.slots = pre ++ .raw :: List.replicate n .raw := by rw [hs, List.replicate_succ]
    rcases construct1_cases P h .dflt (P.ty t).dfltVal hk ht hs' hi ho with ⟨hth, m', e, h', hob, hb, hn⟩ | ⟨hth, m', e, h', hob, hn, hb⟩
    · refine ⟨0, m', Nat.zero_le _, ?_, h', hob, ?_, ?_⟩
      · simp [dfltLoop, M.bind, e]
      · rw [hb, hk]
        cases k
        simp_all [newSlots]
      · intro hx; simp [hx] at hth
    · obtain ⟨j, m'', hj, e2, h2, ho2, hb2, hx⟩ := ih h' (i := i + 1) (pre := pre ++ [.obj m.nextObj (P.ty t).dfltVal]) hb ht
        (by simp) (by simp [hi])
      refine ⟨j + 1, m'', by omega, ?_, h2, hob.trans ho2, ?_, fun hx' => by rw [hx hx']⟩
      · simp only [dfltLoop, M.bind, e, e2]
        simp
      · rw [hb2, hn]
        simp [List.replicate_succ, newSlots]

theorem assignLoop_spec (P : Prog) {t src b : Nat} (hsb : src ≠ b) (vals : List Nat) :
    ∀ {m : Mem} (_ : Inv P m) {i : Nat} {k ks : Block} {pre : List Slot} (_ : m.blocks b = some k) (_ : k.ty = t)
      (_ : k.slots = pre ++ List.replicate vals.length .raw) (_ : pre.length = i) (_ : m.blocks src = some ks)
      (_ : ∀ x v, vals[x]? = some v → ∃ id, ks.slots[i + x]? = some (Slot.obj id v)),
    ∃ m', assignLoop t src b i vals.length m = (.ok (), m') ∧ Inv P m' ∧ OnlyBlock m m' b ∧
      m'.blocks b = some { k with slots := pre ++ newSlots m.nextObj vals } := by
  induction vals with
  | nil =>
    intro m h i k ks pre hk _ hs _ _ _
    refine ⟨m, rfl, h, .refl _ _, ?_⟩
    rw [hk]
    cases k
    simp_all [newSlots]
  | cons v vals ih =>
    intro m h i k ks pre hk ht hs hi hsrc hv
    have hs' : k.slots = pre ++ .raw :: List.replicate vals.length .raw := by rw [hs, List.length_cons, List.replicate_succ]
    have hr : k.slots[i]? = some .raw := by rw [hs']; exact get_mid _ _ _ _ hi
    obtain ⟨id, hid⟩ := hv 0 v rfl
    have e1 : readSlot src i m = (.ok v, m) := by
      simp only [readSlot, hsrc]
      rw [Nat.add_zero] at hid
      rw [hid]
    have e2 : putSlot b i (.obj m.nextObj v) { m with nextObj := m.nextObj + 1, log := .ctor m.nextObj t :: m.log } =
        birth b k i v m := by
      simp [putSlot, hk, birth, ht]
    have hb : (birth b k i v m).blocks b = some { k with slots := pre ++ .obj m.nextObj v :: List.replicate vals.length .raw } := by
      simp [birth, upd, hs', set_mid _ _ _ _ _ hi]
    obtain ⟨m', e3, h', ho, hb'⟩ := ih (inv_birth h hk hr v) (i := i + 1) (ks := ks)
      (pre := pre ++ [.obj m.nextObj v]) hb ht (by simp) (by simp [hi])
      (by simp [birth, upd, hsb, hsrc]) (by
        intro x u hx
        obtain ⟨id, h⟩ := hv (x + 1) u (by simpa using hx)
        exact ⟨id, by rw [← h]; congr 1; omega⟩)
    refine ⟨m', ?_, h', ?_, ?_⟩
    · simp only [List.length_cons, assignLoop, M.bind, e1, e2]
      exact e3
    · refine OnlyBlock.trans (m' := birth b k i v m) ⟨?_, rfl, rfl⟩ ho
      intro b' hne; simp [birth, upd, hne]
    · rw [hb']
      simp [newSlots, birth]

theorem destroyLoop_spec (P : Prog) {b : Nat} (n : Nat) :
    ∀ {m : Mem} (_ : Inv P m) {i : Nat} {k : Block} (_ : m.blocks b = some k) (_ : k.slots.length = i + n)
      (_ : ∀ x, i ≤ x → x < k.slots.length → ∃ id v, k.slots[x]? = some (Slot.obj id v))
      (_ : ∀ x, x < i → k.slots[x]? = some Slot.raw),
    ∃ m' k', destroyLoop b i n m = (.ok (), m') ∧ Inv P m' ∧ OnlyBlock m m' b ∧ m'.blocks b = some k' ∧ k'.ty = k.ty ∧
      k'.heap = k.heap ∧ (∀ x, x < k'.slots.length → k'.slots[x]? = some .raw) ∧ ∀ x ∈ m.log, x ∈ m'.log := by
  induction n with
  | zero =>
    intro m h i k hk hl _ hr
    refine ⟨m, k, rfl, h, .refl _ _, hk, rfl, rfl, fun x hx => hr x (by omega), fun _ hx => hx⟩
  | succ n ih =>
    intro m h i k hk hl ho hr
    obtain ⟨id, v, hi⟩ := ho i (Nat.le_refl _) (by omega)
    have e1 : destroy1 b i m = (.ok (), death b k i id m) := by
      simp only [destroy1, hk, hi]
      simp [putSlot, hk, death]
    have hb : (death b k i id m).blocks b = some { k with slots := k.slots.set i .raw } := by simp [death, upd]
    have h1 := inv_death h hk hi
    obtain ⟨m', k', e2, h', hob, hb', ht, hh, hraw, hg⟩ := ih h1 (i := i + 1) hb (by simp; omega)
      (by
        intro x hx hlt
        obtain ⟨id', v', h'⟩ := ho x (by omega) (by simpa using hlt)
        exact ⟨id', v', by simp [List.getElem?_set, show i ≠ x by omega, h']⟩)
      (by
        intro x hx
        dsimp only
        rw [List.getElem?_set]
        by_cases e : i = x
        · simp [e]; omega
        · simp [e, hr x (by omega)])
    refine ⟨m', k', ?_, h', ?_, hb', ht, hh, hraw, fun x hx => hg x (List.mem_cons_of_mem _ hx)⟩
    · simp only [destroyLoop, M.bind, e1, e2]
    · refine OnlyBlock.trans (m' := death b k i id m) ⟨?_, rfl, rfl⟩ hob
      intro b' hne; simp [death, upd, hne]

/-- how a constructing function of the table may end -/
def Post (P : Prog) (t b : Nat) (m : Mem) (copies : Bool) (done : Mem → Prop) : Out Unit × Mem → Prop
  | (.ok _, m') => done m' ∧ Inv P m' ∧ m'.nextBlock = m.nextBlock ∧ m'.news = m.news
  | (.threw, m') => Inv P m' ∧ OnlyBlock m m' b ∧ ∃ ss, m'.blocks b = some ⟨t, true, ss⟩ ∧
      ((P.ty t).array = false → ss = List.replicate (P.ty t).count .raw)
  | (.terminated, _) => ¬ P.Honest
  | (.ub, _) => (P.ty t).overAligned = true ∨ (copies = true ∧ (P.ty t).array = true ∧ (P.ty t).trivAssign = false)

theorem noexcept_post {P : Prog} {t b : Nat} {m : Mem} {copies : Bool} {done : Mem → Prop} {c : Bool} {f : M Unit}
    (h : Post P t b m copies done (f m)) (hc : c = true → (f m).1 = .threw → ¬ P.Honest) :
    Post P t b m copies done (noexcept c f m) := by
  simp only [noexcept]
  cases hf : f m with
  | mk r m' =>
    rw [hf] at h hc
    cases r with
    | threw =>
      cases c with
      | true => exact hc rfl rfl
      | false => exact h
    | ok _ => exact h
    | terminated => exact h
    | ub => exact h

section
variable {P : Prog} {t b : Nat} {m : Mem}

theorem tableDefault_post (hwf : P.WF) (h : Inv P m)
    (hb : m.blocks b = some ⟨t, true, List.replicate (P.ty t).count .raw⟩) :
    Post P t b m false (fun m' => OnlyBlock m m' b ∧ m'.blocks b = some ⟨t, true,
      if (P.ty t).trivDflt then List.replicate (P.ty t).count .raw
      else newSlots m.nextObj (List.replicate (P.ty t).count (P.ty t).dfltVal)⟩) (tableDefault P t b m) := by
  unfold tableDefault
  cases ha : (P.ty t).able .dflt with
  | false =>
    refine noexcept_post (by simp only [Bool.false_eq_true, if_false]; exact ⟨h, .refl _ _, _, hb, fun _ => rfl⟩) fun hc _ => ?_
    rw [hwf.able _ _ hc] at ha
    simp at ha
  | true =>
    cases htr : (P.ty t).trivDflt with
    | true =>
      refine noexcept_post ?_ fun _ hth => ?_
      · simp only [if_true]
        exact ⟨⟨.refl _ _, hb⟩, h, rfl, rfl⟩
      · simp [M.pure] at hth
    | false =>
      simp only [if_true, Bool.false_eq_true, if_false]
      cases ho : (P.ty t).overAligned with
      | true =>
        cases hn : (P.ty t).count with
        | zero =>
          refine noexcept_post ?_ fun _ hth => ?_
          · refine ⟨⟨.refl _ _, ?_⟩, h, rfl, rfl⟩
            rw [hb, hn]; rfl
          · simp [M.pure, dfltLoop] at hth
        | succ n =>
          have e : dfltLoop P t b 0 (n + 1) m = (.ub, m) := by simp [dfltLoop, M.bind, construct1, ho]
          refine noexcept_post ?_ fun _ hth => ?_
          · rw [e]; exact .inl ho
          · rw [e] at hth; simp at hth
      | false =>
        obtain ⟨j, m', hj, e, h', hob, hb', hall⟩ := dfltLoop_spec P ho (P.ty t).count h (pre := []) hb rfl rfl (i := 0) rfl
        refine noexcept_post ?_ fun hc hth => ?_
        · rw [e]
          by_cases hjn : j = (P.ty t).count
          · rw [if_pos hjn]
            refine ⟨⟨hob, ?_⟩, h', hob.next, hob.news⟩
            rw [hb', hjn]
            simp
          · rw [if_neg hjn]
            refine ⟨h', hob, _, hb', fun harr => ?_⟩
            have := hwf.one t harr
            have hj0 : j = 0 := by omega
            subst hj0
            simp [newSlots]
        · intro hon
          rw [e, hall fun x => hon .dflt t x hc] at hth
          simp at hth

theorem tableCopy_post (hwf : P.WF) (h : Inv P m)
    (hb : m.blocks b = some ⟨t, true, List.replicate (P.ty t).count .raw⟩) {src : Nat} (hsb : src ≠ b) {vals : List Nat}
    {ks : Block} (hks : m.blocks src = some ks) (hkt : ks.ty = t) (hlen : vals.length = (P.ty t).count)
    (hv : ∀ (x v : Nat), vals[x]? = some v → ∃ id, ks.slots[x]? = some (Slot.obj id v)) :
    Post P t b m true (fun m' => OnlyBlock m m' b ∧ m'.blocks b = some ⟨t, true,
      newSlots m.nextObj (if (P.ty t).array then vals else vals.map (P.ty t).copyVal)⟩) (tableCopy P t src b m) := by
  unfold tableCopy
  have e0 : hasType t src m = (.ok (), m) := by simp [hasType, hks, hkt]
  cases ha : (P.ty t).able .copy with
  | false =>
    refine noexcept_post (by simp only [Bool.false_eq_true, if_false]; exact ⟨h, .refl _ _, _, hb, fun _ => rfl⟩) fun hc _ => ?_
    rw [hwf.able _ _ hc] at ha
    simp at ha
  | true =>
    cases harr : (P.ty t).array with
    | true =>
      cases htr : (P.ty t).trivAssign with
      | false =>
        simp only [if_true, Bool.false_eq_true, if_false]
        refine noexcept_post ?_ fun _ hth => ?_
        · simp only [M.bind, e0]
          exact .inr ⟨rfl, harr, htr⟩
        · simp [M.bind, e0] at hth
      | true =>
        obtain ⟨m', e, h', hob, hb'⟩ := assignLoop_spec P hsb vals h (pre := []) hb rfl (by rw [hlen]; rfl) (i := 0) rfl hks
          (by intro x v hx; rw [Nat.zero_add]; exact hv x v hx)
        rw [hlen] at e
        simp only [if_true]
        refine noexcept_post ?_ fun _ hth => ?_
        · simp only [M.bind, e0, e]
          exact ⟨⟨hob, hb'⟩, h', hob.next, hob.news⟩
        · simp [M.bind, e0, e] at hth
    | false =>
      have hc1 := hwf.one t harr
      rw [hc1] at hlen hb
      obtain ⟨v, rfl⟩ : ∃ v, vals = [v] := List.length_eq_one_iff.1 hlen
      obtain ⟨id, hid⟩ := hv 0 v rfl
      have e1 : readSlot src 0 m = (.ok v, m) := by simp only [readSlot, hks, hid]
      simp only [if_true, Bool.false_eq_true, if_false]
      cases ho : (P.ty t).overAligned with
      | true =>
        refine noexcept_post ?_ fun _ hth => ?_
        · simp only [M.bind, e0, e1, construct1, ho, if_true]
          exact .inl ho
        · simp [M.bind, e0, e1, construct1, ho] at hth
      | false =>
        rcases construct1_cases P h .copy ((P.ty t).copyVal v) hb rfl (pre := []) (rest := []) rfl (i := 0) rfl ho with
          ⟨hth, m', e, h', hob, hb', _⟩ | ⟨hth, m', e, h', hob, _, hb'⟩
        · refine noexcept_post ?_ fun hc _ hon => ?_
          · simp only [M.bind, e0, e1, e]
            refine ⟨h', hob, _, by rw [hb', hb], fun _ => by rw [hc1]⟩
          · rw [hon _ _ _ hc] at hth; simp at hth
        · refine noexcept_post ?_ fun hc hth' => ?_
          · simp only [M.bind, e0, e1, e]
            exact ⟨⟨hob, hb'⟩, h', hob.next, hob.news⟩
          · simp [M.bind, e0, e1, e] at hth'

/-- the source block after a move -/
def Left (P : Prog) (t : Nat) (vals : List Nat) (ks ks' : Block) : Prop :=
  ((P.ty t).array = true ∧ ks' = ks) ∨ ((P.ty t).array = false ∧ ∃ id v, vals = [v] ∧ ks.slots[0]? = some (Slot.obj id v) ∧
    ks' = { ks with slots := ks.slots.set 0 (.obj id ((P.ty t).moveVal v).2) })

theorem tableMove_post (hwf : P.WF) (h : Inv P m)
    (hb : m.blocks b = some ⟨t, true, List.replicate (P.ty t).count .raw⟩) {src : Nat} (hsb : src ≠ b) {vals : List Nat}
    {ks : Block} (hks : m.blocks src = some ks) (hkt : ks.ty = t) (hlen : vals.length = (P.ty t).count)
    (hv : ∀ (x v : Nat), vals[x]? = some v → ∃ id, ks.slots[x]? = some (Slot.obj id v)) :
    Post P t b m true (fun m' => (∀ b', b' ≠ b → b' ≠ src → m'.blocks b' = m.blocks b') ∧
      (∃ ks', m'.blocks src = some ks' ∧ Left P t vals ks ks') ∧
      m'.blocks b = some ⟨t, true, newSlots m.nextObj (if (P.ty t).array then vals else vals.map fun v => ((P.ty t).moveVal v).1)⟩) (tableMove P t src b m) := by
  unfold tableMove
  have e0 : hasType t src m = (.ok (), m) := by simp [hasType, hks, hkt]
  cases ha : (P.ty t).able .move with
  | false =>
    refine noexcept_post (by simp only [Bool.false_eq_true, if_false]; exact ⟨h, .refl _ _, _, hb, fun _ => rfl⟩) fun hc _ => ?_
    rw [hwf.able _ _ hc] at ha
    simp at ha
  | true =>
    cases harr : (P.ty t).array with
    | true =>
      cases htr : (P.ty t).trivAssign with
      | false =>
        simp only [if_true, Bool.false_eq_true, if_false]
        refine noexcept_post ?_ fun _ hth => ?_
        · simp only [M.bind, e0]
          exact .inr ⟨rfl, harr, htr⟩
        · simp [M.bind, e0] at hth
      | true =>
        obtain ⟨m', e, h', hob, hb'⟩ := assignLoop_spec P hsb vals h (pre := []) hb rfl (by rw [hlen]; rfl) (i := 0) rfl hks
          (by intro x v hx; rw [Nat.zero_add]; exact hv x v hx)
        rw [hlen] at e
        simp only [if_true]
        refine noexcept_post ?_ fun _ hth => ?_
        · simp only [M.bind, e0, e]
          exact ⟨⟨fun b' h1 _ => hob.others b' h1, ⟨ks, by rw [hob.others _ hsb, hks], .inl ⟨harr, rfl⟩⟩, hb'⟩, h', hob.next, hob.news⟩
        · simp [M.bind, e0, e] at hth
    | false =>
      have hc1 := hwf.one t harr
      rw [hc1] at hlen hb
      obtain ⟨v, rfl⟩ : ∃ v, vals = [v] := List.length_eq_one_iff.1 hlen
      obtain ⟨id, hid⟩ := hv 0 v rfl
      have e1 : readSlot src 0 m = (.ok v, m) := by simp only [readSlot, hks, hid]
      simp only [if_true, Bool.false_eq_true, if_false]
      cases ho : (P.ty t).overAligned with
      | true =>
        refine noexcept_post ?_ fun _ hth => ?_
        · simp only [M.bind, e0, e1, construct1, ho, if_true]
          exact .inl ho
        · simp [M.bind, e0, e1, construct1, ho] at hth
      | false =>
        rcases construct1_cases P h .move ((P.ty t).moveVal v).1 hb rfl (pre := []) (rest := []) rfl (i := 0) rfl ho with
          ⟨hth, m', e, h', hob, hb', _⟩ | ⟨hth, m', e, h', hob, _, hb'⟩
        · refine noexcept_post ?_ fun hc _ hon => ?_
          · simp only [M.bind, e0, e1, e]
            refine ⟨h', hob, _, by rw [hb', hb], fun _ => by rw [hc1]⟩
          · rw [hon _ _ _ hc] at hth; simp at hth
        · have hs' : m'.blocks src = some ks := by rw [hob.others _ hsb, hks]
          have e2 : writeSlot src 0 ((P.ty t).moveVal v).2 m' = (.ok (), putSlot src 0 (.obj id ((P.ty t).moveVal v).2) m') := by
            simp only [writeSlot, hs', hid]
          refine noexcept_post ?_ fun hc hth' => ?_
          · simp only [M.bind, e0, e1, e, e2]
            refine ⟨⟨?_, ⟨_, ?_, .inr ⟨harr, id, v, rfl, hid, rfl⟩⟩, ?_⟩, inv_write h' hs' hid, ?_, ?_⟩
            · intro b' h1 h2
              simp only [putSlot, hs', upd, h2, if_false]
              exact hob.others b' h1
            · simp [putSlot, hs', upd]
            · simp only [putSlot, hs', upd, Ne.symm hsb, if_false]
              exact hb'
            · simp only [putSlot, hs']; exact hob.next
            · simp only [putSlot, hs']; exact hob.news
          · simp [M.bind, e0, e1, e, e2] at hth'

end
end Rtti.Mk
