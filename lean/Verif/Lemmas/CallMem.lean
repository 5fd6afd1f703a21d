import Verif.Spec.CallMem
import Verif.Lemmas.VariantMem
/-! The temporaries of a call. -/
set_option autoImplicit false
namespace Rtti.CallMem
open VMem

/-- what a piece of a call does to memory: objects below `lo` and blocks below `blo` are as they were; it takes over objects of the
    types `l` and `n` blocks, and leaves objects of the types `l'` and `n'` blocks -/
structure Eff (lo blo : Nat) (m m' : Mem) (l l' : List Nat) (n n' : Nat) : Prop where
  objs : ∀ id, id < lo → m'.objs id = m.objs id
  blocks : ∀ b, b < blo → m'.blocks b = m.blocks b
  nextObj : m.nextObj ≤ m'.nextObj
  nextBlock : m.nextBlock ≤ m'.nextBlock
  bal : ∀ q : Nat → Bool, ctors q m'.log + dtors q m.log + l.countP q = ctors q m.log + dtors q m'.log + l'.countP q
  balB : allocs m'.log + frees m.log + n = allocs m.log + frees m'.log + n'

theorem Eff.refl (lo blo : Nat) (m : Mem) (l : List Nat) (n : Nat) : Eff lo blo m m l l n n :=
  ⟨fun _ _ => rfl, fun _ _ => rfl, Nat.le_refl _, Nat.le_refl _, fun _ => by omega, by omega⟩

theorem Eff.trans {lo blo lo' blo' : Nat} {m m1 m2 : Mem} {l l1 l2 : List Nat} {n n1 n2 : Nat} (h : Eff lo blo m m1 l l1 n n1)
    (h' : Eff lo' blo' m1 m2 l1 l2 n1 n2) (hl : lo ≤ lo') (hb : blo ≤ blo') : Eff lo blo m m2 l l2 n n2 := by
  refine ⟨fun id hi => ?_, fun b hi => ?_, Nat.le_trans h.nextObj h'.nextObj, Nat.le_trans h.nextBlock h'.nextBlock, fun q => ?_, ?_⟩
  · rw [h'.objs id (by omega), h.objs id hi]
  · rw [h'.blocks b (by omega), h.blocks b hi]
  · have := h.bal q
    have := h'.bal q
    omega
  · have := h.balB
    have := h'.balB
    omega

theorem Eff.frame {lo blo : Nat} {m m' : Mem} {l l' : List Nat} {n n' : Nat} (h : Eff lo blo m m' l l' n n') (a : List Nat) (k : Nat) :
    Eff lo blo m m' (a ++ l) (a ++ l') (k + n) (k + n') := by
  refine ⟨h.objs, h.blocks, h.nextObj, h.nextBlock, fun q => ?_, ?_⟩
  · have := h.bal q
    simp only [List.countP_append]
    omega
  · have := h.balB
    omega

theorem Eff.perm {lo blo : Nat} {m m' : Mem} {l l' k k' : List Nat} {n n' : Nat} (h : Eff lo blo m m' l l' n n')
    (hl : ∀ q : Nat → Bool, l.countP q = k.countP q) (hl' : ∀ q : Nat → Bool, l'.countP q = k'.countP q) : Eff lo blo m m' k k' n n' := by
  refine ⟨h.objs, h.blocks, h.nextObj, h.nextBlock, fun q => ?_, h.balB⟩
  rw [← hl, ← hl']
  exact h.bal q

theorem Eff.born (m : Mem) (t v : Nat) : Eff m.nextObj m.nextBlock m (m.born t v) [] [t] 0 0 := by
  refine ⟨fun id h => ?_, fun _ _ => rfl, ?_, Nat.le_refl _, fun q => ?_, rfl⟩
  · have : id ≠ m.nextObj := by omega
    simp [Mem.born, upd, this]
  · simp [Mem.born]
  · simp only [Mem.born, ctors, dtors, List.countP_cons, List.countP_nil]
    omega

/-- the end of an object -/
def Mem.dead (m : Mem) (t id : Nat) : Mem := { m with objs := upd m.objs id none, log := .dtor id t :: m.log }

theorem destroyObj_eq {m : Mem} {t id v : Nat} (h : m.objs id = some ⟨t, v⟩) : destroyObj t id m = (.ok (), Mem.dead m t id) := by
  simp [destroyObj, h, Mem.dead]

theorem Eff.dead (m : Mem) (t id blo : Nat) : Eff id blo m (Mem.dead m t id) [t] [] 0 0 := by
  refine ⟨fun i h => ?_, fun _ _ => rfl, Nat.le_refl _, Nat.le_refl _, fun q => ?_, rfl⟩
  · have : i ≠ id := by omega
    simp [Mem.dead, upd, this]
  · simp only [Mem.dead, ctors, dtors, List.countP_cons, List.countP_nil]
    omega

def moveO (P : Prog) (t v : Nat) : Option Nat := if (P.ty t).movable then ((P.ty t).move v).map (·.1) else copyS P t v

theorem copyVal_spec {P : Prog} {t : Nat} (h : (P.ty t).place ≠ .array) (v : Nat) (m : Mem) :
    copyVal P t v m = match copyS P t v with
      | some v' => (.ok m.nextObj, m.born t v')
      | none => (.threw, m) := by
  unfold copyVal copyS
  cases (P.ty t).copyable
  · simp
  · simp only [Bool.true_eq_false, if_false, h, false_and, if_true]
    cases (P.ty t).copy v <;> rfl

theorem moveVal_spec {P : Prog} {t : Nat} (h : (P.ty t).place ≠ .array) (v : Nat) (m : Mem) :
    (∃ v' r, moveO P t v = some v' ∧ moveVal P t v m = (.ok (m.nextObj, r), m.born t v')) ∨
    (moveO P t v = none ∧ moveVal P t v m = (.threw, m)) := by
  unfold moveVal moveO
  cases hm : (P.ty t).movable
  · simp only [Bool.false_eq_true, if_false]
    rw [copyVal_spec h]
    cases copyS P t v with
    | none => exact .inr ⟨rfl, rfl⟩
    | some v' => exact .inl ⟨v', v, rfl, rfl⟩
  · simp only [if_true, h, false_and, if_false]
    cases (P.ty t).move v with
    | none => exact .inr ⟨rfl, rfl⟩
    | some p => exact .inl ⟨p.1, p.2, rfl, rfl⟩

theorem moveS_eq (P : Prog) (t v : Nat) : moveS P t v = promised (P.ty t).nothrowMove (moveO P t v) := rfl

/-- what `fill` leaves -/
theorem fill_spec {P : Prog} {t : Nat} (h : (P.ty t).place ≠ .array) (src : Src) (m : Mem) :
    match fillS P t src with
    | (.ok v, l) => ∃ m', fill P t src m = (.ok m.nextObj, m') ∧ m'.objs m.nextObj = some ⟨t, v⟩ ∧ m'.nextObj = m.nextObj + 1 ∧
        l = [] ∧ Eff m.nextObj m.nextBlock m m' [] [t] 0 0 ∧ m'.nextBlock = m.nextBlock
    | (.threw, l) => ∃ m', fill P t src m = (.threw, m') ∧ Eff m.nextObj m.nextBlock m m' [] l 0 0
    | (.terminated, _) => (fill P t src m).1 = .terminated
    | (.ub, _) => False := by
  cases src with
  | copy v =>
    simp only [fillS, fill, noexcept, copyVal_spec h]
    cases copyS P t v with
    | some v' => exact ⟨_, rfl, by simp [Mem.born, upd], rfl, rfl, Eff.born m t v', rfl⟩
    | none =>
      simp only [promised]
      cases (P.ty t).nothrowCopy
      · exact ⟨m, rfl, Eff.refl ..⟩
      · rfl
  | made v a =>
    cases a
    · exact ⟨m.born t v, rfl, Eff.born m t v⟩
    · exact ⟨m.born t v, rfl, by simp [Mem.born, upd], rfl, rfl, Eff.born m t v, rfl⟩
  | fails => exact ⟨m, rfl, Eff.refl ..⟩

/-- what `to` leaves -/
theorem to_spec {P : Prog} {t : Nat} (h : (P.ty t).place ≠ .array) (src : Src) (m : Mem) :
    match toS P t src with
    | (.ok v, l) => ∃ m' id, to P t src m = (.ok id, m') ∧ m'.objs id = some ⟨t, v⟩ ∧ m.nextObj ≤ id ∧ id < m'.nextObj ∧
        l = [] ∧ Eff m.nextObj m.nextBlock m m' [] [t] 0 0 ∧ m'.nextBlock = m.nextBlock
    | (.threw, l) => ∃ m', to P t src m = (.threw, m') ∧ Eff m.nextObj m.nextBlock m m' [] l 0 0
    | (.terminated, _) => (to P t src m).1 = .terminated
    | (.ub, _) => False := by
  have hf := fill_spec h src m
  unfold toS
  have e : ∀ m', to P t src m' = M.bind (fill P t src) (fun b => finallyM (noexcept (P.ty t).nothrowMove (moveObj P t b)) (destroyObj t b)) m' :=
    fun _ => rfl
  rcases hs : fillS P t src with ⟨o, l⟩
  rw [hs] at hf
  cases o with
  | ok v =>
    obtain ⟨m', ef, ho, hn, rfl, hE, hb⟩ := hf
    simp only [e, M.bind, ef]
    rw [moveS_eq]
    rcases moveVal_spec h v m' with ⟨v', r, hv, hm⟩ | ⟨hv, hm⟩
    · rw [hv]
      have em : moveObj P t m.nextObj m' = (.ok m'.nextObj, { m'.born t v' with objs := upd (m'.born t v').objs m.nextObj (some ⟨t, r⟩) }) := by
        simp [moveObj, ho, hm]
      have h2 : (m'.born t v').objs m.nextObj = some ⟨t, v⟩ := by
        have : m.nextObj ≠ m'.nextObj := by omega
        simp [Mem.born, upd, this, ho]
      refine ⟨Mem.dead { m'.born t v' with objs := upd (m'.born t v').objs m.nextObj (some ⟨t, r⟩) } t m.nextObj, m'.nextObj, ?_, ?_, by omega, ?_, rfl, ?_, hb⟩
      · simp only [finallyM, noexcept, em]
        rw [destroyObj_eq (v := r) (by simp [upd])]
      · have : m'.nextObj ≠ m.nextObj := by omega
        simp [Mem.dead, Mem.born, upd, this]
      · simp [Mem.dead, Mem.born]
      · have e1 := (hE.trans ((Eff.born m' t v').frame [t] 0) (by omega) hE.nextBlock)
        have e2 : Eff m.nextObj m.nextBlock (m'.born t v') { m'.born t v' with objs := upd (m'.born t v').objs m.nextObj (some ⟨t, r⟩) } [t, t] [t, t] 0 0 :=
          ⟨fun id hi => by have : id ≠ m.nextObj := by omega
                           simp [upd, this], fun _ _ => rfl, Nat.le_refl _, Nat.le_refl _, fun _ => by dsimp only, by dsimp only⟩
        exact (e1.trans e2 (Nat.le_refl _) (Nat.le_refl _)).trans ((Eff.dead _ t m.nextObj m.nextBlock).frame [t] 0) (Nat.le_refl _) (Nat.le_refl _)
    · rw [hv]
      have em : moveObj P t m.nextObj m' = (.threw, m') := by simp [moveObj, ho, hm]
      simp only [promised, finallyM, noexcept, em]
      cases (P.ty t).nothrowMove
      · refine ⟨Mem.dead m' t m.nextObj, ?_, hE.trans (Eff.dead m' t m.nextObj m.nextBlock) (Nat.le_refl _) (Nat.le_refl _)⟩
        simp only [Bool.false_eq_true, if_false]
        rw [destroyObj_eq ho]
      · simp
  | threw =>
    obtain ⟨m', ef, hE⟩ := hf
    exact ⟨m', by simp only [e, M.bind, ef], hE⟩
  | terminated =>
    dsimp only at hf ⊢
    simp only [e, M.bind]
    revert hf
    rcases fill P t src m with ⟨o, m'⟩
    cases o <;> simp
  | ub => exact hf

/-- the variant `x` has an object of type `t`, made in the given range -/
def Has (P : Prog) (s : State) (lo hi blo bhi x t v : Nat) : Prop :=
  if (P.ty t).place = .small then
    ∃ id, s.env (some x) = some ⟨.own t, .obj id⟩ ∧ lo ≤ id ∧ id < hi ∧ s.mem.objs id = some ⟨t, v⟩
  else
    ∃ b id, s.env (some x) = some ⟨.own t, .block b⟩ ∧ blo ≤ b ∧ b < bhi ∧ s.mem.blocks b = some (some id) ∧ lo ≤ id ∧ id < hi ∧
      s.mem.objs id = some ⟨t, v⟩

/-- the variants `i`, `i + 1`, ... are empty or have objects of the types `c`, made one after the other -/
def Filled (P : Prog) (s : State) : (lo blo i n : Nat) → List Nat → Prop
  | _, _, _, 0, c => c = []
  | lo, blo, i, n + 1, c => ∃ mid bmid, lo ≤ mid ∧ blo ≤ bmid ∧
      ((s.env (some i) = some fresh ∧ Filled P s mid bmid (i + 1) n c) ∨
        ∃ t v c', c = t :: c' ∧ Has P s lo mid blo bmid i t v ∧ Filled P s mid bmid (i + 1) n c')

/-- of these, how many on the heap -/
def bigs (P : Prog) : List Nat → Nat
  | [] => 0
  | t :: c => bigs P c + if (P.ty t).place = .small then 0 else 1

theorem Filled.mono {P : Prog} {s : State} {n : Nat} {lo blo lo' blo' i : Nat} {c : List Nat} (h : Filled P s lo blo i n c) (hl : lo' ≤ lo)
    (hb : blo' ≤ blo) : Filled P s lo' blo' i n c := by
  cases n with
  | zero => exact h
  | succ n =>
    obtain ⟨mid, bmid, h1, h2, h3⟩ := h
    refine ⟨mid, bmid, by omega, by omega, ?_⟩
    rcases h3 with h3 | ⟨t, v, c', e, hh, h3⟩
    · exact .inl h3
    · refine .inr ⟨t, v, c', e, ?_, h3⟩
      unfold Has at hh ⊢
      split
      · rw [if_pos ‹_›] at hh
        obtain ⟨id, a, b, c, d⟩ := hh
        exact ⟨id, a, by omega, c, d⟩
      · rw [if_neg ‹_›] at hh
        obtain ⟨b, id, a, b', c, d, e, f, g⟩ := hh
        exact ⟨b, id, a, by omega, c, d, by omega, f, g⟩

theorem Has.congr {P : Prog} {s s' : State} {lo hi blo bhi x t v : Nat} (h : Has P s lo hi blo bhi x t v) (he : s'.env (some x) = s.env (some x))
    (ho : ∀ id, lo ≤ id → id < hi → s'.mem.objs id = s.mem.objs id) (hb : ∀ b, blo ≤ b → b < bhi → s'.mem.blocks b = s.mem.blocks b) :
    Has P s' lo hi blo bhi x t v := by
  unfold Has at h ⊢
  split
  · rw [if_pos ‹_›] at h
    obtain ⟨id, a, b, c, d⟩ := h
    exact ⟨id, by rw [he, a], b, c, by rw [ho id b c, d]⟩
  · rw [if_neg ‹_›] at h
    obtain ⟨b, id, a, b', c, d, e, f, g⟩ := h
    exact ⟨b, id, by rw [he, a], b', c, by rw [hb b b' c, d], e, f, by rw [ho id e f, g]⟩

theorem Filled.congr {P : Prog} {s s' : State} {n : Nat} {lo blo i : Nat} {c : List Nat} (h : Filled P s lo blo i n c)
    (he : ∀ k, i ≤ k → k < i + n → s'.env (some k) = s.env (some k)) (ho : ∀ id, lo ≤ id → s'.mem.objs id = s.mem.objs id)
    (hb : ∀ b, blo ≤ b → s'.mem.blocks b = s.mem.blocks b) : Filled P s' lo blo i n c := by
  induction n generalizing lo blo i c with
  | zero => exact h
  | succ n ih =>
    obtain ⟨mid, bmid, h1, h2, h3⟩ := h
    have hi : ∀ c, Filled P s mid bmid (i + 1) n c → Filled P s' mid bmid (i + 1) n c := fun c h =>
      ih h (fun k a b => he k (by omega) (by omega)) (fun id h => ho id (by omega)) (fun b h => hb b (by omega))
    refine ⟨mid, bmid, h1, h2, ?_⟩
    rcases h3 with ⟨h3, h4⟩ | ⟨t, v, c', e, hh, h3⟩
    · exact .inl ⟨by rw [he i (by omega) (by omega), h3], hi _ h4⟩
    · exact .inr ⟨t, v, c', e, hh.congr (he i (by omega) (by omega)) (fun id h _ => ho id h) (fun b h _ => hb b h), hi _ h3⟩

/-- destroying the variants -/
theorem destroyAll_spec {P : Prog} {n : Nat} {s : State} {lo blo i : Nat} {c : List Nat} (h : Filled P s lo blo i n c) :
    ∃ s', destroyAll P i n s = (.ok (), s') ∧ (∀ k, i ≤ k → k < i + n → s'.env (some k) = none) ∧
      (∀ k, (∀ j, k = some j → j < i ∨ i + n ≤ j) → s'.env k = s.env k) ∧ Eff lo blo s.mem s'.mem c [] (bigs P c) 0 := by
  induction n generalizing lo blo i c with
  | zero =>
    cases h
    exact ⟨s, rfl, fun k a b => by omega, fun _ _ => rfl, Eff.refl ..⟩
  | succ n ih =>
    obtain ⟨mid, bmid, h1, h2, h3⟩ := h
    rcases h3 with ⟨h3, h4⟩ | ⟨t, v, c', rfl, hh, h4⟩
    · obtain ⟨s', e, hn, ho, hE⟩ := ih h4
      have hi : s'.env (some i) = some fresh := by rw [ho (some i) (fun j hj => by cases hj; omega), h3]
      refine ⟨put (some i) none s', ?_, fun k a b => ?_, fun k hk => ?_, ⟨fun id h => hE.objs id (by omega), fun b h => hE.blocks b (by omega),
        hE.nextObj, hE.nextBlock, hE.bal, hE.balB⟩⟩
      · simp [destroyAll, seq, e, doDestroy, hi, VMem.clear, fresh, fDestroy, lift, bind, M.bind, pure, M.pure]
      · by_cases hk : k = i
        · simp [put, upd, hk]
        · rw [show (put (some i) none s').env (some k) = s'.env (some k) by simp [put, upd, hk], hn k (by omega) (by omega)]
      · have : k ≠ some i := fun e => by have := hk i e; omega
        rw [show (put (some i) none s').env k = s'.env k by simp [put, upd, this], ho k fun j hj => by have := hk j hj; omega]
    · obtain ⟨s', e, hn, ho, hE⟩ := ih h4
      have hh' : Has P s' lo mid blo bmid i t v :=
        hh.congr (ho (some i) fun j hj => by cases hj; omega) (fun id _ h => hE.objs id h) (fun b _ h => hE.blocks b h)
      have envs : ∀ (m : Mem), (∀ k, i ≤ k → k < i + (n + 1) → (put (some i) none ⟨s'.env, m⟩).env (some k) = none) ∧
          ∀ k, (∀ j, k = some j → j < i ∨ i + (n + 1) ≤ j) → (put (some i) none ⟨s'.env, m⟩).env k = s.env k := by
        intro m
        constructor
        · intro k a b
          by_cases hk : k = i
          · simp [put, upd, hk]
          · rw [show (put (some i) none ⟨s'.env, m⟩).env (some k) = s'.env (some k) by simp [put, upd, hk], hn k (by omega) (by omega)]
        · intro k hk
          have : k ≠ some i := fun e => by have := hk i e; omega
          rw [show (put (some i) none ⟨s'.env, m⟩).env k = s'.env k by simp [put, upd, this], ho k fun j hj => by have := hk j hj; omega]
      have hE1 := hE.frame [t] (if (P.ty t).place = .small then 0 else 1)
      unfold Has at hh'
      by_cases hp : (P.ty t).place = .small
      · rw [if_pos hp] at hh' hE1
        obtain ⟨id, he, hlo, hhi, hob⟩ := hh'
        refine ⟨put (some i) none ⟨s'.env, Mem.dead s'.mem t id⟩, ?_, (envs _).1, (envs _).2, ?_⟩
        · simp [destroyAll, seq, e, doDestroy, he, VMem.clear, fDestroy, hp, lift, bind, M.bind, pure, M.pure, destroyObj_eq hob]
        · have e0 : 0 + bigs P c' = bigs P (t :: c') := by simp [bigs, hp]
          have hd := Eff.dead s'.mem t id blo
          rw [e0] at hE1
          have hE2 : Eff lo blo s.mem s'.mem (t :: c') [t] (bigs P (t :: c')) 0 :=
            ⟨fun j h => hE1.objs j (by omega), fun b h => hE1.blocks b (by omega), hE1.nextObj, hE1.nextBlock, hE1.bal, hE1.balB⟩
          exact hE2.trans hd hlo (Nat.le_refl _)
      · rw [if_neg hp] at hh' hE1
        obtain ⟨b, id, he, hblo, hbhi, hbl, hlo, hhi, hob⟩ := hh'
        let m2 : Mem := { Mem.dead s'.mem t id with blocks := upd s'.mem.blocks b none, log := .free b :: .dtor id t :: s'.mem.log }
        have hd : destroyObj t id s'.mem = (.ok (), Mem.dead s'.mem t id) := destroyObj_eq hob
        refine ⟨put (some i) none ⟨s'.env, m2⟩, ?_, (envs _).1, (envs _).2, ?_⟩
        · have hf : fDestroy P (.own t) (.block b) s'.mem = (.ok (), m2) := by
            unfold fDestroy
            cases hq : (P.ty t).place with
            | small => exact absurd hq hp
            | big => simp [locate, inBlock, hbl, bind, M.bind, hd, deallocate, m2, Mem.dead]
            | array => simp [locate, inBlock, hbl, bind, M.bind, hd, deallocate, m2, Mem.dead]
          simp [destroyAll, seq, e, doDestroy, he, VMem.clear, lift, bind, M.bind, pure, M.pure, hf]
        · have e0 : 1 + bigs P c' = bigs P (t :: c') := by simp [bigs, hp, Nat.add_comm]
          rw [e0] at hE1
          have hE2 : Eff lo blo s.mem s'.mem (t :: c') [t] (bigs P (t :: c')) 1 :=
            ⟨fun j h => hE1.objs j (by omega), fun b h => hE1.blocks b (by omega), hE1.nextObj, hE1.nextBlock, hE1.bal, hE1.balB⟩
          refine hE2.trans (lo' := lo) (blo' := blo) ?_ (Nat.le_refl _) (Nat.le_refl _)
          change Eff lo blo s'.mem m2 [t] [] 1 0
          refine ⟨fun j h => ?_, fun b' h => ?_, Nat.le_refl _, Nat.le_refl _, fun q => ?_, ?_⟩
          · have : j ≠ id := by omega
            simp [m2, Mem.dead, upd, this]
          · have : b' ≠ b := by omega
            simp [m2, upd, this]
          · simp only [m2, ctors, dtors, List.countP_cons, List.countP_nil]
            omega
          · simp only [m2, allocs, frees]
            omega

theorem fMove_small {P : Prog} {t : Nat} (hp : (P.ty t).place = .small) (v : Nat) (m : Mem) :
    fMoveConstruct P t v m = match moveO P t v with
      | some v' => (.ok (.obj m.nextObj), m.born t v')
      | none => (if (P.ty t).nothrowMove then .terminated else .threw, m) := by
  have ha : (P.ty t).place ≠ .array := by rw [hp]; nofun
  unfold fMoveConstruct
  rw [hp]
  rcases moveVal_spec ha v m with ⟨v', r, hv, hm⟩ | ⟨hv, hm⟩
  · simp [noexcept, bind, M.bind, moveNew, hm, hv, pure, M.pure]
  · simp only [noexcept, bind, M.bind, moveNew, hm, hv]
    cases (P.ty t).nothrowMove <;> rfl

/-- a new block -/
def Mem.room (m : Mem) : Mem :=
  { m with blocks := upd m.blocks m.nextBlock (some none), nextBlock := m.nextBlock + 1, log := .alloc m.nextBlock :: m.log }

theorem fMove_big {P : Prog} {t : Nat} (hp : (P.ty t).place = .big) (v : Nat) (m : Mem) (hoom : P.oom m.nextBlock = false) :
    fMoveConstruct P t v m = match moveO P t v with
      | some v' => (.ok (.block m.nextBlock), { (Mem.room m).born t v' with
          blocks := upd (Mem.room m).blocks m.nextBlock (some (some m.nextObj)) })
      | none => (if (P.ty t).nothrowMove then .terminated else .threw, Mem.room m) := by
  have ha : (P.ty t).place ≠ .array := by rw [hp]; nofun
  unfold fMoveConstruct
  rw [hp]
  have hal : allocate P m = (.ok m.nextBlock, Mem.room m) := by simp [allocate, hoom, Mem.room]
  rcases moveVal_spec ha v (Mem.room m) with ⟨v', r, hv, hm⟩ | ⟨hv, hm⟩
  · have hb : ((Mem.room m).born t v').blocks m.nextBlock = some none := by simp [Mem.born, Mem.room, upd]
    simp only [noexcept, bind, M.bind, hal, moveNew, hm, hv, pure, M.pure, setBlock, hb]
    rfl
  · simp only [noexcept, bind, M.bind, hal, moveNew, hm, hv]
    cases (P.ty t).nothrowMove <;> rfl

theorem fMove_oom {P : Prog} {t : Nat} (hp : (P.ty t).place = .big) (v : Nat) (m : Mem) (hoom : P.oom m.nextBlock = true) :
    fMoveConstruct P t v m = (if (P.ty t).nothrowMove then .terminated else .threw, { m with nextBlock := m.nextBlock + 1 }) := by
  unfold fMoveConstruct
  rw [hp]
  simp only [noexcept, bind, M.bind, allocate, hoom, if_true]
  cases (P.ty t).nothrowMove <;> rfl

theorem Eff.weak {lo blo lo' blo' : Nat} {m m' : Mem} {l l' : List Nat} {n n' : Nat} (h : Eff lo blo m m' l l' n n') (hl : lo' ≤ lo)
    (hb : blo' ≤ blo) : Eff lo' blo' m m' l l' n n' :=
  ⟨fun id hi => h.objs id (by omega), fun b hi => h.blocks b (by omega), h.nextObj, h.nextBlock, h.bal, h.balB⟩

theorem Eff.room (m : Mem) : Eff m.nextObj m.nextBlock m (Mem.room m) [] [] 0 1 := by
  refine ⟨fun _ _ => rfl, fun b h => ?_, Nat.le_refl _, ?_, fun q => ?_, ?_⟩
  · have : b ≠ m.nextBlock := by omega
    simp [Mem.room, upd, this]
  · simp [Mem.room]
  · simp [Mem.room, ctors, dtors]
  · simp only [Mem.room, allocs, frees]
    omega

theorem promised_some {c : Bool} {o : Option Nat} {v : Nat} (h : o = some v) : promised c o = .ok v := by rw [h]; rfl

/-- `m_dummy = to<T>()` -/
theorem store_spec {P : Prog} {t : Nat} (h : (P.ty t).place ≠ .array)
    (hc : (P.ty t).copyable = true ∨ (P.ty t).movable = true) {s : State} {x r v : Nat} (hx : s.env (some x) = some fresh)
    (hn : s.env none = none) (hr : s.mem.objs r = some ⟨t, v⟩) (hlt : r < s.mem.nextObj)
    (hoom : ¬ ((P.ty t).place ≠ .small ∧ P.oom s.mem.nextBlock = true)) :
    match moveS P t v with
    | .ok v' =>
      if (P.ty t).place = .small then
        match moveS P t v' with
        | .ok v'' => ∃ s', store P t x r s = (.ok (), s') ∧ (∀ k, k ≠ some x → s'.env k = s.env k) ∧
            Has P s' s.mem.nextObj s'.mem.nextObj s.mem.nextBlock s'.mem.nextBlock x t v'' ∧ Eff r s.mem.nextBlock s.mem s'.mem [t] [t, t] 0 0 ∧
            s'.mem.nextBlock = s.mem.nextBlock
        | _ => (store P t x r s).1 = .terminated
      else ∃ s', store P t x r s = (.ok (), s') ∧ (∀ k, k ≠ some x → s'.env k = s.env k) ∧
          Has P s' s.mem.nextObj s'.mem.nextObj s.mem.nextBlock s'.mem.nextBlock x t v' ∧ Eff r s.mem.nextBlock s.mem s'.mem [t] [t] 0 1 ∧
          s'.mem.nextBlock = s.mem.nextBlock + 1
    | .threw => ∃ m', store P t x r s = (.threw, ⟨s.env, m'⟩) ∧
        Eff r s.mem.nextBlock s.mem m' [t] [] 0 (if (P.ty t).place = .small then 0 else 1)
    | .terminated => (store P t x r s).1 = .terminated
    | .ub => False := by
  have hok : ((P.ty t).copyable || (true && (P.ty t).movable)) = true := by
    rcases hc with h | h <;> simp [h]
  unfold store
  rw [hr]
  have hnv : newValue P none t v true s = lift (fMoveConstruct P t v) (fun c => put none (some ⟨.own t, c⟩)) s := by
    rw [newValue, if_pos hok]
    rfl
  -- the end of the temporary
  have hdrop : ∀ (e : Option Nat → Option Var) (m : Mem) (w : Nat), m.objs r = some ⟨t, w⟩ → drop t r ⟨e, m⟩ = (.ok (), ⟨e, Mem.dead m t r⟩) := by
    intro e m w hw
    simp [drop, lift, destroyObj_eq hw]
  rw [moveS_eq]
  by_cases hp : (P.ty t).place = .small
  · cases hv : moveO P t v with
    | none =>
      have e : newValue P none t v true s = (if (P.ty t).nothrowMove then .terminated else .threw, s) := by
        rw [hnv, lift, fMove_small hp, hv]
        cases (P.ty t).nothrowMove <;> rfl
      simp only [promised, finally', viaTemp, seq, e, hp, if_true]
      cases (P.ty t).nothrowMove
      · refine ⟨Mem.dead s.mem t r, ?_, Eff.dead s.mem t r s.mem.nextBlock⟩
        simp only [Bool.false_eq_true, if_false]
        rw [show drop t r s = _ from hdrop s.env s.mem v hr]
      · rfl
    | some v' =>
      have e : newValue P none t v true s = (.ok (), put none (some ⟨.own t, .obj s.mem.nextObj⟩) ⟨s.env, s.mem.born t v'⟩) := by
        rw [hnv, lift, fMove_small hp, hv]
      simp only [promised, hp, if_true]
      rw [moveS_eq]
      let m1 := s.mem.born t v'
      have ho1 : m1.objs s.mem.nextObj = some ⟨t, v'⟩ := by simp [m1, Mem.born, upd]
      rcases moveVal_spec h v' m1 with ⟨v2, rr, hv2, hm⟩ | ⟨hv2, hm⟩
      · rw [hv2]
        have em : moveObj P t s.mem.nextObj m1 = (.ok m1.nextObj, { m1.born t v2 with objs := upd (m1.born t v2).objs s.mem.nextObj (some ⟨t, rr⟩) }) := by
          simp [moveObj, ho1, hm]
        let m2 : Mem := { m1.born t v2 with objs := upd (m1.born t v2).objs s.mem.nextObj (some ⟨t, rr⟩) }
        have hsw : doSwap P none (some x) (put none (some ⟨.own t, .obj s.mem.nextObj⟩) ⟨s.env, m1⟩) =
            (.ok (), put (some x) (some ⟨.own t, .obj m1.nextObj⟩) (put none (some ⟨.void, .null⟩)
              (put none (some ⟨.own t, .obj s.mem.nextObj⟩) ⟨s.env, m2⟩))) := by
          simp [doSwap, put, upd, hx, fresh, VMem.swap, fMove, hp, noexcept, lift, bind, M.bind, em, pure, M.pure, m2]
        have hmo : m2.objs r = some ⟨t, v⟩ := by
          have h1 : r ≠ s.mem.nextObj := by omega
          have h2 : r ≠ s.mem.nextObj + 1 := by omega
          simp [m2, m1, Mem.born, upd, h1, h2, hr]
        let env' : Option Nat → Option Var := upd (upd (upd (upd s.env none (some ⟨.own t, .obj s.mem.nextObj⟩)) none (some ⟨.void, .null⟩)) (some x)
          (some ⟨.own t, .obj m1.nextObj⟩)) none none
        refine ⟨⟨env', Mem.dead m2 t r⟩, ?_, fun k hk => ?_, ?_, ?_, rfl⟩
        · have hde : doDestroy P none (put (some x) (some ⟨.own t, .obj m1.nextObj⟩) (put none (some ⟨.void, .null⟩)
              (put none (some ⟨.own t, .obj s.mem.nextObj⟩) ⟨s.env, m2⟩))) = (.ok (), ⟨env', m2⟩) := by
            simp [doDestroy, put, upd, VMem.clear, fDestroy, lift, bind, M.bind, pure, M.pure, env']
          simp only [finally', viaTemp, seq, e]
          rw [hsw]
          simp only [hde]
          rw [hdrop env' m2 v hmo]
        · cases k with
          | none => simp [env', upd, hn]
          | some k =>
            have : k ≠ x := fun e => hk (by rw [e])
            simp [env', upd, this]
        · rw [Has, if_pos hp]
          refine ⟨m1.nextObj, by simp [env', upd], by simp [m1, Mem.born], by simp [m2, Mem.dead, Mem.born], ?_⟩
          have h1 : s.mem.nextObj + 1 ≠ r := by omega
          simp [m2, m1, Mem.dead, Mem.born, upd, h1]
        · have e1 := (Eff.born s.mem t v').weak (lo' := r) (by omega) (Nat.le_refl _)
          have e2 := ((Eff.born m1 t v2).frame [t] 0).weak (lo' := r) (blo' := s.mem.nextBlock) (by simp [m1, Mem.born]; omega) (by simp [m1, Mem.born])
          have e3 : Eff r s.mem.nextBlock (m1.born t v2) m2 [t, t] [t, t] 0 0 :=
            ⟨fun id hi => by have : id ≠ s.mem.nextObj := by omega
                             simp [m2, upd, this], fun _ _ => rfl, Nat.le_refl _, Nat.le_refl _, fun _ => by simp only [m2], by simp only [m2]⟩
          have e4 := ((e1.trans e2 (Nat.le_refl _) (Nat.le_refl _)).trans e3 (Nat.le_refl _) (Nat.le_refl _)).frame [t] 0
          exact (e4.trans ((Eff.dead m2 t r s.mem.nextBlock).frame [t, t] 0) (Nat.le_refl _) (Nat.le_refl _)).perm (fun _ => rfl) (fun _ => rfl)
      · rw [hv2]
        have em : moveObj P t s.mem.nextObj m1 = (.threw, m1) := by simp [moveObj, ho1, hm]
        have hsw : (doSwap P none (some x) (put none (some ⟨.own t, .obj s.mem.nextObj⟩) ⟨s.env, m1⟩)).1 = .terminated := by
          cases hnt : (P.ty t).nothrowMove <;>
            simp [doSwap, put, upd, hx, fresh, VMem.swap, fMove, hp, noexcept, lift, bind, M.bind, em, hnt]
        have hfin : (finally' (viaTemp P (newValue P none t v true) x) (drop t r) s).1 = .terminated := by
          simp only [finally', viaTemp, seq, e]
          revert hsw
          rcases doSwap P none (some x) (put none (some ⟨.own t, .obj s.mem.nextObj⟩) ⟨s.env, m1⟩) with ⟨o, s'⟩
          intro hsw
          cases hsw
          rfl
        cases (P.ty t).nothrowMove <;> exact hfin
  · have hb : (P.ty t).place = .big := by
      cases hq : (P.ty t).place with
      | small => exact absurd hq hp
      | big => rfl
      | array => exact absurd hq h
    have hoom : P.oom s.mem.nextBlock = false := by
      cases ho : P.oom s.mem.nextBlock
      · rfl
      · exact absurd ⟨hp, ho⟩ hoom
    cases hv : moveO P t v with
    | none =>
      have e : newValue P none t v true s = (if (P.ty t).nothrowMove then .terminated else .threw, ⟨s.env, Mem.room s.mem⟩) := by
        rw [hnv, lift, fMove_big hb _ _ hoom, hv]
        cases (P.ty t).nothrowMove <;> rfl
      simp only [promised, finally', viaTemp, seq, e, hp, if_false]
      cases (P.ty t).nothrowMove
      · refine ⟨Mem.dead (Mem.room s.mem) t r, ?_, ?_⟩
        · simp only [Bool.false_eq_true, if_false]
          rw [hdrop s.env (Mem.room s.mem) v hr]
        · exact (((Eff.room s.mem).weak (lo' := r) (by omega) (Nat.le_refl _)).frame [t] 0).trans
            ((Eff.dead (Mem.room s.mem) t r s.mem.nextBlock).frame [] 1) (Nat.le_refl _) (Nat.le_refl _)
      · rfl
    | some v' =>
      let m1 : Mem := { (Mem.room s.mem).born t v' with blocks := upd (Mem.room s.mem).blocks s.mem.nextBlock (some (some s.mem.nextObj)) }
      have e : newValue P none t v true s = (.ok (), put none (some ⟨.own t, .block s.mem.nextBlock⟩) ⟨s.env, m1⟩) := by
        rw [hnv, lift, fMove_big hb _ _ hoom, hv]
      simp only [promised, hp, if_false]
      let m2 : Mem := { m1 with odd := true }
      have hsw : doSwap P none (some x) (put none (some ⟨.own t, .block s.mem.nextBlock⟩) ⟨s.env, m1⟩) =
          (.ok (), put (some x) (some ⟨.own t, .block s.mem.nextBlock⟩) (put none (some ⟨.void, .null⟩)
            (put none (some ⟨.own t, .block s.mem.nextBlock⟩) ⟨s.env, m2⟩))) := by
        simp [doSwap, put, upd, hx, fresh, VMem.swap, fMove, hb, noexcept, lift, bind, M.bind, readPtr, pure, M.pure, m2]
      have hmo : m2.objs r = some ⟨t, v⟩ := by
        have h1 : r ≠ s.mem.nextObj := by omega
        simp [m2, m1, Mem.born, Mem.room, upd, h1, hr]
      let env' : Option Nat → Option Var := upd (upd (upd (upd s.env none (some ⟨.own t, .block s.mem.nextBlock⟩)) none (some ⟨.void, .null⟩)) (some x)
        (some ⟨.own t, .block s.mem.nextBlock⟩)) none none
      refine ⟨⟨env', Mem.dead m2 t r⟩, ?_, fun k hk => ?_, ?_, ?_, rfl⟩
      · have hde : doDestroy P none (put (some x) (some ⟨.own t, .block s.mem.nextBlock⟩) (put none (some ⟨.void, .null⟩)
            (put none (some ⟨.own t, .block s.mem.nextBlock⟩) ⟨s.env, m2⟩))) = (.ok (), ⟨env', m2⟩) := by
          simp [doDestroy, put, upd, VMem.clear, fDestroy, lift, bind, M.bind, pure, M.pure, env']
        simp only [finally', viaTemp, seq, e]
        rw [hsw]
        simp only [hde]
        rw [hdrop env' m2 v hmo]
      · cases k with
        | none => simp [env', upd, hn]
        | some k =>
          have : k ≠ x := fun e => hk (by rw [e])
          simp [env', upd, this]
      · rw [Has, if_neg hp]
        have h1 : s.mem.nextObj ≠ r := by omega
        refine ⟨s.mem.nextBlock, s.mem.nextObj, by simp [env', upd], Nat.le_refl _, by simp [m2, m1, Mem.dead, Mem.born, Mem.room],
          by simp [m2, m1, Mem.dead, upd], Nat.le_refl _, by simp [m2, m1, Mem.dead, Mem.born, Mem.room], ?_⟩
        simp [m2, m1, Mem.dead, Mem.born, Mem.room, upd, h1]
      · have e1 := (Eff.room s.mem).weak (lo' := r) (by omega) (Nat.le_refl _)
        have e2 := ((Eff.born (Mem.room s.mem) t v').frame [] 1).weak (lo' := r) (blo' := s.mem.nextBlock) (by simp [Mem.room]; omega) (by simp [Mem.room])
        have e3 : Eff r s.mem.nextBlock ((Mem.room s.mem).born t v') m2 [t] [t] 1 1 :=
          ⟨fun id hi => rfl, fun b hb => by have : b ≠ s.mem.nextBlock := by omega
                                            simp [m2, m1, upd, this, Mem.born, Mem.room], Nat.le_refl _, Nat.le_refl _,
            fun _ => by simp only [m2, m1], by simp only [m2, m1]⟩
        have e4 := ((e1.trans e2 (Nat.le_refl _) (Nat.le_refl _)).trans e3 (Nat.le_refl _) (Nat.le_refl _)).frame [t] 0
        exact (e4.trans ((Eff.dead m2 t r s.mem.nextBlock).frame [t] 1) (Nat.le_refl _) (Nat.le_refl _)).perm (fun _ => rfl) (fun _ => rfl)

/-- `m_dummy = to<T>()` without memory: the temporary is destroyed -/
theorem store_oom {P : Prog} {t : Nat} (h : (P.ty t).place ≠ .array)
    (hc : (P.ty t).copyable = true ∨ (P.ty t).movable = true) {s : State} {x r v : Nat} (hr : s.mem.objs r = some ⟨t, v⟩)
    (hoom : (P.ty t).place ≠ .small ∧ P.oom s.mem.nextBlock = true) :
    if (P.ty t).nothrowMove then (store P t x r s).1 = .terminated
    else ∃ m', store P t x r s = (.threw, ⟨s.env, m'⟩) ∧ Eff r s.mem.nextBlock s.mem m' [t] [] 0 0 := by
  have hok : ((P.ty t).copyable || (true && (P.ty t).movable)) = true := by
    rcases hc with h | h <;> simp [h]
  unfold store
  rw [hr]
  have hnv : newValue P none t v true s = lift (fMoveConstruct P t v) (fun c => put none (some ⟨.own t, c⟩)) s := by
    rw [newValue, if_pos hok]
    rfl
  have hb : (P.ty t).place = .big := by
    cases hq : (P.ty t).place with
    | small => exact absurd hq hoom.1
    | big => rfl
    | array => exact absurd hq h
  let m1 : Mem := { s.mem with nextBlock := s.mem.nextBlock + 1 }
  have e : newValue P none t v true s = (if (P.ty t).nothrowMove then .terminated else .threw, ⟨s.env, m1⟩) := by
    rw [hnv, lift, fMove_oom hb _ _ hoom.2]
    cases (P.ty t).nothrowMove <;> rfl
  simp only [finally', viaTemp, seq, e]
  cases (P.ty t).nothrowMove
  · refine ⟨Mem.dead m1 t r, ?_, ?_⟩
    · have hr1 : m1.objs r = some ⟨t, v⟩ := hr
      simp [drop, lift, destroyObj_eq hr1]
    · have e1 : Eff r s.mem.nextBlock s.mem m1 [t] [t] 0 0 :=
        ⟨fun _ _ => rfl, fun _ _ => rfl, Nat.le_refl _, Nat.le_succ _, fun _ => by simp only [m1], by simp only [m1]⟩
      exact e1.trans (Eff.dead m1 t r s.mem.nextBlock) (Nat.le_refl _) (Nat.le_refl _)
  · rfl

theorem callS_defined {P : Prog} (throws : List Nat → Bool) (ps : List Param) (n : Nat) (vs : List Nat) : (callS P throws n vs ps).1 ≠ .ub := by
  have hm : ∀ t v, moveS P t v ≠ .ub := by
    intro t v
    rw [moveS_eq]
    cases moveO P t v with
    | none => simp only [promised]; split <;> nofun
    | some _ => nofun
  have ht : ∀ t src, (toS P t src).1 ≠ .ub := by
    intro t src
    unfold toS
    cases src with
    | copy v =>
      simp only [fillS]
      cases copyS P t v with
      | none => simp only [promised]; cases (P.ty t).nothrowCopy <;> nofun
      | some w => exact hm t w
    | made v a =>
      cases a
      · nofun
      · exact hm t v
    | fails => nofun
  have hu : ∀ o : Out Nat, o ≠ .ub → toUnit o ≠ .ub := by
    intro o
    cases o <;> simp [toUnit]
  induction ps generalizing n vs with
  | nil => unfold callS; cases throws vs <;> nofun
  | cons p ps ih =>
    cases p with
    | direct => exact ih _ _
    | value t src =>
      unfold callS
      have := ht t src
      revert this
      rcases toS P t src with ⟨o, l⟩
      intro this
      cases o with
      | ok v => exact ih _ _
      | threw => nofun
      | terminated => nofun
      | ub => exact absurd rfl this
    | dummy t src =>
      unfold callS
      have := ht t src
      revert this
      rcases toS P t src with ⟨o, l⟩
      intro this
      cases o with
      | ok v =>
        dsimp only
        split
        · split <;> nofun
        have h1 := hm t v
        cases e : moveS P t v with
        | ok v' =>
          dsimp only
          split
          · cases moveS P t v' <;> first | exact ih _ _ | nofun
          · exact ih _ _
        | threw => nofun
        | terminated => nofun
        | ub => exact absurd e h1
      | threw => nofun
      | terminated => nofun
      | ub => exact absurd rfl this

/-- the variants of the arguments stay empty -/
theorem Filled.empty {P : Prog} {s : State} {n : Nat} {lo blo i : Nat} (h : ∀ k, i ≤ k → k < i + n → s.env (some k) = some fresh) :
    Filled P s lo blo i n [] := by
  induction n generalizing i with
  | zero => rfl
  | succ n ih => exact ⟨lo, blo, Nat.le_refl _, Nat.le_refl _, .inl ⟨h i (by omega) (by omega), ih fun k a b => h k (by omega) (by omega)⟩⟩

/-- what is true after the body of a call -/
def After (P : Prog) (i n : Nat) (s s' : State) (lost : List Nat) (blocks : Nat) : Prop :=
  ∃ c, (∀ k, (∀ j, k = some j → j < i ∨ i + n ≤ j) → s'.env k = s.env k) ∧
    Filled P s' s.mem.nextObj s.mem.nextBlock i n c ∧
    Eff s.mem.nextObj s.mem.nextBlock s.mem s'.mem [] (lost ++ c) 0 (blocks + bigs P c)

theorem After.none {P : Prog} {i n : Nat} {s : State} {m : Mem} {l : List Nat} {b : Nat}
    (h : ∀ k, i ≤ k → k < i + n → s.env (some k) = some fresh) (hE : Eff s.mem.nextObj s.mem.nextBlock s.mem m [] l 0 b) :
    After P i n s ⟨s.env, m⟩ l b :=
  ⟨[], fun _ _ => rfl, Filled.empty h, by rw [List.append_nil]; exact hE⟩

/-- the parameters so far: their objects exist and have these values -/
def Args (m : Mem) : List (Nat × Nat) → List Nat → Prop
  | [], [] => True
  | (t, id) :: l, v :: vs => m.objs id = some ⟨t, v⟩ ∧ id < m.nextObj ∧ Args m l vs
  | _, _ => False

theorem Args.read {m : Mem} {l : List (Nat × Nat)} {vs : List Nat} (h : Args m l vs) : readAll m l = some vs := by
  induction l generalizing vs with
  | nil => cases vs with
    | nil => rfl
    | cons _ _ => exact h.elim
  | cons p l ih =>
    obtain ⟨t, id⟩ := p
    cases vs with
    | nil => exact h.elim
    | cons v vs =>
      obtain ⟨h1, -, h2⟩ := h
      simp [readAll, h1, ih h2]

theorem Args.keep {m m' : Mem} {l : List (Nat × Nat)} {vs : List Nat} (h : Args m l vs) (ho : ∀ id, id < m.nextObj → m'.objs id = m.objs id)
    (hn : m.nextObj ≤ m'.nextObj) : Args m' l vs := by
  induction l generalizing vs with
  | nil => cases vs with
    | nil => trivial
    | cons _ _ => exact h.elim
  | cons p l ih =>
    obtain ⟨t, id⟩ := p
    cases vs with
    | nil => exact h.elim
    | cons v vs =>
      obtain ⟨h1, h2, h3⟩ := h
      exact ⟨by rw [ho id h2, h1], by omega, ih h3⟩

theorem Args.snoc {m : Mem} {l : List (Nat × Nat)} {vs : List Nat} (h : Args m l vs) {t id v : Nat} (h1 : m.objs id = some ⟨t, v⟩)
    (h2 : id < m.nextObj) : Args m (l ++ [(t, id)]) (vs ++ [v]) := by
  induction l generalizing vs with
  | nil => cases vs with
    | nil => exact ⟨h1, h2, trivial⟩
    | cons _ _ => exact h.elim
  | cons p l ih =>
    obtain ⟨t', id'⟩ := p
    cases vs with
    | nil => exact h.elim
    | cons w vs =>
      obtain ⟨a, b, c⟩ := h
      exact ⟨a, b, ih c⟩

theorem Has.bound {P : Prog} {s : State} {lo hi blo bhi x t v : Nat} (h : Has P s lo hi blo bhi x t v) (ht : (P.ty t).place ≠ .array) :
    ∃ id, inDummy P t x s = .ok id ∧ lo ≤ id ∧ id < hi ∧ s.mem.objs id = some ⟨t, v⟩ := by
  unfold Has at h
  split at h
  · obtain ⟨id, a, b, c, d⟩ := h
    refine ⟨id, ?_, b, c, d⟩
    simp [inDummy, locate, *, pure, M.pure]
  · obtain ⟨b, id, a, b', c, d, e, f, g⟩ := h
    refine ⟨id, ?_, e, f, g⟩
    have hb : (P.ty t).place = .big := by
      cases hq : (P.ty t).place with
      | small => contradiction
      | big => rfl
      | array => exact absurd hq ht
    simp [inDummy, a, locate, hb, inBlock, d]

theorem body_spec {P : Prog} (throws : List Nat → Bool) (ps : List Param) (hf : ∀ p ∈ ps, p.Fine P) :
    ∀ (n i : Nat) (acc : List (Nat × Nat)) (vs : List Nat) (s : State), s.mem.nextBlock = n → Args s.mem acc vs →
      (∀ k, i ≤ k → k < i + ps.length → s.env (some k) = some fresh) → s.env none = none →
      ∃ s', body P throws i acc ps s = ((callS P throws n vs ps).1, s') ∧
        ((callS P throws n vs ps).1 ≠ .terminated → After P i ps.length s s' (callS P throws n vs ps).2.1 (callS P throws n vs ps).2.2) := by
  induction ps with
  | nil =>
    intro n i acc vs s hb ha hs hn
    exact ⟨s, by simp [body, callS, ha.read], fun _ => After.none (m := s.mem) hs (Eff.refl ..)⟩
  | cons p ps ih =>
    intro n i acc vs s hb ha hs hn
    have ih := ih fun p hp => hf p (.tail _ hp)
    have hp := hf p (.head _)
    simp only [List.length_cons] at hs ⊢
    cases p with
    | direct =>
      obtain ⟨s', e, h⟩ := ih n (i + 1) acc vs s hb ha (fun k a b => hs k (by omega) (by omega)) hn
      refine ⟨s', e, fun hne => ?_⟩
      obtain ⟨c, henv, hF, hE⟩ := h hne
      refine ⟨c, fun k hk => henv k fun j hj => by have := hk j hj; omega, ?_, hE⟩
      exact ⟨_, _, Nat.le_refl _, Nat.le_refl _, .inl ⟨by rw [henv _ fun j hj => by cases hj; omega]; exact hs i (by omega) (by omega), hF⟩⟩
    | value t src =>
      have ht := to_spec hp.1 src s.mem
      unfold callS body
      rcases hto : toS P t src with ⟨o, l⟩
      rw [hto] at ht
      cases o with
      | threw =>
        obtain ⟨m', e, hE⟩ := ht
        refine ⟨⟨s.env, m'⟩, ?_, fun _ => After.none hs hE⟩
        simp [bindM, e, toUnit]
      | terminated =>
        dsimp only at ht ⊢
        have : (bindM (to P t src) (fun id => finally' (body P throws (i + 1) (acc ++ [(t, id)]) ps) (drop t id)) s).1 = .terminated := by
          unfold bindM
          revert ht
          rcases to P t src s.mem with ⟨o, m⟩
          intro ht
          cases ht
          rfl
        exact ⟨_, Prod.ext this rfl, fun h => absurd rfl h⟩
      | ub => exact ht.elim
      | ok v =>
        obtain ⟨m', id, e, hob, hlo, hhi, rfl, hE, hb'⟩ := ht
        obtain ⟨s', eb, h⟩ := ih n (i + 1) (acc ++ [(t, id)]) (vs ++ [v]) ⟨s.env, m'⟩ (hb'.trans hb) ((ha.keep hE.objs hE.nextObj).snoc hob hhi)
          (fun k a b => hs k (by omega) (by omega)) hn
        have hdef := callS_defined (P := P) throws ps n (vs ++ [v])
        dsimp only
        by_cases hterm : (callS P throws n (vs ++ [v]) ps).1 = .terminated
        · refine ⟨s', ?_, fun h => absurd hterm h⟩
          simp [bindM, e, finally', eb, hterm]
        · obtain ⟨c, henv, hF, hE2⟩ := h hterm
          have hob' : s'.mem.objs id = some ⟨t, v⟩ := by rw [hE2.objs id hhi]; exact hob
          have hd : drop t id s' = (.ok (), ⟨s'.env, Mem.dead s'.mem t id⟩) := by simp [drop, lift, destroyObj_eq hob']
          refine ⟨⟨s'.env, Mem.dead s'.mem t id⟩, ?_, fun _ => ⟨c, fun k hk => henv k fun j hj => by have := hk j hj; omega, ?_, ?_⟩⟩
          · simp only [bindM, e, finally', eb]
            cases hc : (callS P throws n (vs ++ [v]) ps).1 with
            | ok _ => simp [hd]
            | threw => simp [hd]
            | terminated => exact absurd hc hterm
            | ub => exact absurd hc hdef
          · refine ⟨m'.nextObj, m'.nextBlock, hE.nextObj, hE.nextBlock, .inl ⟨?_, ?_⟩⟩
            · change s'.env (some i) = _
              rw [henv _ fun j hj => by cases hj; omega]
              exact hs i (by omega) (by omega)
            · refine hF.congr (fun _ _ _ => rfl) (fun j hj => ?_) fun _ _ => rfl
              have hj : m'.nextObj ≤ j := hj
              have : j ≠ id := by omega
              simp [Mem.dead, upd, this]
          · have e1 := hE.trans (hE2.frame [t] 0) hE.nextObj hE.nextBlock
            have e2 := (Eff.dead s'.mem t id s.mem.nextBlock).frame ((callS P throws n (vs ++ [v]) ps).2.1 ++ c)
              ((callS P throws n (vs ++ [v]) ps).2.2 + bigs P c)
            have e1' := e1.perm (k' := ((callS P throws n (vs ++ [v]) ps).2.1 ++ c) ++ [t]) (fun _ => rfl) (fun q => by
              simp only [List.countP_append]
              omega)
            simp only [Nat.zero_add] at e1'
            have e3 := e1'.trans e2 hlo (Nat.le_refl _)
            simpa using e3
    | dummy t src =>
      have ht := to_spec hp.1 src s.mem
      unfold callS body
      let next : Nat → Step := fun r => seq (store P t i r) fun s =>
        match inDummy P t i s with
        | .ok id => body P throws (i + 1) (acc ++ [(t, id)]) ps s
        | _ => (.ub, s)
      rcases hto : toS P t src with ⟨o, l⟩
      rw [hto] at ht
      change ∃ s', bindM (to P t src) next s = _ ∧ _
      cases o with
      | threw =>
        obtain ⟨m', e, hE⟩ := ht
        refine ⟨⟨s.env, m'⟩, ?_, fun _ => After.none hs hE⟩
        simp [bindM, e, toUnit]
      | terminated =>
        dsimp only at ht ⊢
        have : (bindM (to P t src) next s).1 = .terminated := by
          unfold bindM
          revert ht
          rcases to P t src s.mem with ⟨o, m⟩
          intro ht
          cases ht
          rfl
        exact ⟨_, Prod.ext this rfl, fun h => absurd rfl h⟩
      | ub => exact ht.elim
      | ok v =>
        obtain ⟨m', r, e, hob, hlo, hhi, rfl, hE, hb'⟩ := ht
        have ebind : bindM (to P t src) next s = next r ⟨s.env, m'⟩ := by simp [bindM, e]
        dsimp only
        rw [ebind]
        -- when the value is stored, the rest follows
        have rest : ∀ (n' : Nat) (s1 : State) (k w : Nat) (lost : List Nat), s1.mem.nextBlock = n' → store P t i r ⟨s.env, m'⟩ = (.ok (), s1) → (∀ k, k ≠ some i → s1.env k = s.env k) →
            Has P s1 m'.nextObj s1.mem.nextObj m'.nextBlock s1.mem.nextBlock i t w → Eff r m'.nextBlock m' s1.mem [t] (lost ++ [t]) 0 k →
            (k = if (P.ty t).place = .small then 0 else 1) →
            ∃ s', next r ⟨s.env, m'⟩ = ((callS P throws n' (vs ++ [w]) ps).1, s') ∧
              ((callS P throws n' (vs ++ [w]) ps).1 ≠ .terminated →
                After P i (ps.length + 1) s s' (lost ++ (callS P throws n' (vs ++ [w]) ps).2.1) (callS P throws n' (vs ++ [w]) ps).2.2) := by
          intro n' s1 k w lost hb1 es henv1 hH hE1 hk
          obtain ⟨id, hid, hid1, hid2, hid3⟩ := hH.bound hp.1
          have ha1 : Args s1.mem acc vs := ha.keep (fun j hj => by
            rw [hE1.objs j (by omega)]
            exact hE.objs j hj) (Nat.le_trans hE.nextObj hE1.nextObj)
          obtain ⟨s', eb, h⟩ := ih n' (i + 1) (acc ++ [(t, id)]) (vs ++ [w]) s1 hb1 (ha1.snoc hid3 hid2)
            (fun k a b => by rw [henv1 _ (by simp; omega)]; exact hs k (by omega) (by omega))
            (by rw [henv1 none nofun]; exact hn)
          refine ⟨s', by simp [next, seq, es, hid, eb], fun hne => ?_⟩
          obtain ⟨c, henv, hF, hE2⟩ := h hne
          refine ⟨t :: c, fun k hk => ?_, ?_, ?_⟩
          · rw [henv k fun j hj => by have := hk j hj; omega, henv1 k fun e => by have := hk i e; omega]
          · refine ⟨s1.mem.nextObj, s1.mem.nextBlock, Nat.le_trans hE.nextObj hE1.nextObj, Nat.le_trans hE.nextBlock hE1.nextBlock,
              .inr ⟨t, w, c, rfl, ?_, hF⟩⟩
            have hH' : Has P s' m'.nextObj s1.mem.nextObj m'.nextBlock s1.mem.nextBlock i t w :=
              hH.congr (henv _ fun j hj => by cases hj; omega) (fun id _ h => hE2.objs id h) (fun b _ h => hE2.blocks b h)
            unfold Has at hH' ⊢
            split
            · rw [if_pos ‹_›] at hH'
              obtain ⟨id, a, b, c, d⟩ := hH'
              exact ⟨id, a, Nat.le_trans hE.nextObj b, c, d⟩
            · rw [if_neg ‹_›] at hH'
              obtain ⟨b, id, a, b', c, d, e, f, g⟩ := hH'
              exact ⟨b, id, a, Nat.le_trans hE.nextBlock b', c, d, Nat.le_trans hE.nextObj e, f, g⟩
          · have e1 := hE.trans hE1 hlo hE.nextBlock
            have e2 := e1.trans (by simpa using hE2.frame (lost ++ [t]) k) (Nat.le_trans hE.nextObj hE1.nextObj) (Nat.le_trans hE.nextBlock hE1.nextBlock)
            have e3 : k + ((callS P throws n' (vs ++ [w]) ps).2.2 + bigs P c) = (callS P throws n' (vs ++ [w]) ps).2.2 + bigs P (t :: c) := by
              rw [hk]
              simp only [bigs]
              omega
            rw [e3] at e2
            exact e2.perm (fun _ => rfl) fun q => by
              simp only [List.countP_append, List.countP_cons, List.countP_nil]
              omega
        have stop : (store P t i r ⟨s.env, m'⟩).1 = .terminated → (next r ⟨s.env, m'⟩).1 = .terminated := by
          intro hst
          simp only [next, seq]
          revert hst
          rcases store P t i r ⟨s.env, m'⟩ with ⟨o, m⟩
          intro hst
          cases hst
          rfl
        by_cases hoom : (P.ty t).place ≠ .small ∧ P.oom n = true
        · rw [if_pos hoom]
          have hst := store_oom hp.1 hp.2 (s := ⟨s.env, m'⟩) (x := i) hob (by rw [← hb, ← hb'] at hoom; exact hoom)
          cases hnt : (P.ty t).nothrowMove with
          | true =>
            rw [if_pos hnt] at hst
            exact ⟨_, Prod.ext (stop hst) rfl, fun h => absurd rfl h⟩
          | false =>
            rw [if_neg (by rw [hnt]; nofun)] at hst
            obtain ⟨m2, es, hE1⟩ := hst
            exact ⟨⟨s.env, m2⟩, by simp [next, seq, es], fun _ => After.none hs (hE.trans hE1 hlo hE.nextBlock)⟩
        rw [if_neg hoom]
        have hst := store_spec hp.1 hp.2 (s := ⟨s.env, m'⟩) (x := i) (hs i (by omega) (by omega)) hn hob hhi
          (by rw [← hb, ← hb'] at hoom; exact hoom)
        cases hmv : moveS P t v with
        | ok v' =>
          rw [hmv] at hst
          dsimp only at hst ⊢
          by_cases hsm : (P.ty t).place = .small
          · rw [if_pos hsm] at hst ⊢
            cases hmv2 : moveS P t v' with
            | ok v2 =>
              rw [hmv2] at hst
              obtain ⟨s1, es, henv1, hH, hE1, hb1⟩ := hst
              exact rest n s1 0 v2 [t] (hb1.trans (hb'.trans hb)) es henv1 hH hE1 (by rw [if_pos hsm])
            | threw | terminated | ub =>
              rw [hmv2] at hst
              exact ⟨_, Prod.ext (stop hst) rfl, fun h => absurd rfl h⟩
          · rw [if_neg hsm] at hst ⊢
            obtain ⟨s1, es, henv1, hH, hE1, hb1⟩ := hst
            exact rest (n + 1) s1 1 v' [] (by rw [hb1, hb', hb]) es henv1 hH hE1 (by rw [if_neg hsm])
        | threw =>
          rw [hmv] at hst
          obtain ⟨m2, es, hE1⟩ := hst
          refine ⟨⟨s.env, m2⟩, by simp [next, seq, es, toUnit], fun _ => After.none hs ?_⟩
          exact hE.trans hE1 hlo hE.nextBlock
        | terminated =>
          rw [hmv] at hst
          exact ⟨_, Prod.ext (stop hst) rfl, fun h => absurd rfl h⟩
        | ub => rw [hmv] at hst; exact hst.elim

theorem newAll_env (n : Nat) (i : Nat) (s : State) :
    (∀ k, i ≤ k → k < i + n → (newAll i n s).env (some k) = some fresh) ∧
    (∀ k, (∀ j, k = some j → j < i ∨ i + n ≤ j) → (newAll i n s).env k = s.env k) ∧ (newAll i n s).mem = s.mem := by
  induction n generalizing i s with
  | zero => exact ⟨fun k a b => by omega, fun _ _ => rfl, rfl⟩
  | succ n ih =>
    obtain ⟨h1, h2, h3⟩ := ih (i + 1) (put (some i) (some fresh) s)
    refine ⟨fun k a b => ?_, fun k hk => ?_, h3⟩
    · by_cases hk : k = i
      · subst hk
        rw [newAll, h2 _ fun j hj => by cases hj; omega]
        simp [put, upd]
      · exact h1 k (by omega) (by omega)
    · rw [newAll, h2 k fun j hj => by have := hk j hj; omega]
      have : k ≠ some i := fun e => by have := hk i e; omega
      simp [put, upd, this]

/-- a whole call -/
theorem call_spec {P : Prog} (throws : List Nat → Bool) (ps : List Param) (hf : ∀ p ∈ ps, p.Fine P) (x : Nat)
    (s : State) (hs : ∀ k, x ≤ k → k < x + ps.length → s.env (some k) = none) (hn : s.env none = none) :
    (call P throws x ps s).1 = (callS P throws s.mem.nextBlock [] ps).1 ∧
    ((callS P throws s.mem.nextBlock [] ps).1 ≠ .terminated → (call P throws x ps s).2.env = s.env ∧
      Eff s.mem.nextObj s.mem.nextBlock s.mem (call P throws x ps s).2.mem [] (callS P throws s.mem.nextBlock [] ps).2.1 0 (callS P throws s.mem.nextBlock [] ps).2.2) := by
  obtain ⟨h1, h2, h3⟩ := newAll_env ps.length x s
  obtain ⟨s', e, h⟩ := body_spec throws ps hf s.mem.nextBlock x [] [] (newAll x ps.length s) (by rw [h3]) trivial h1 (by rw [h2 none nofun]; exact hn)
  have hdef := callS_defined (P := P) throws ps s.mem.nextBlock []
  by_cases hterm : (callS P throws s.mem.nextBlock [] ps).1 = .terminated
  · refine ⟨?_, fun h => absurd hterm h⟩
    simp [call, finally', e, hterm]
  · obtain ⟨c, henv, hF, hE⟩ := h hterm
    obtain ⟨s'', ed, hd1, hd2, hEd⟩ := destroyAll_spec hF
    have ec : call P throws x ps s = ((callS P throws s.mem.nextBlock [] ps).1, s'') := by
      unfold call finally'
      rw [e]
      cases hc : (callS P throws s.mem.nextBlock [] ps).1 with
      | ok _ => simp [ed]
      | threw => simp [ed]
      | terminated => exact absurd hc hterm
      | ub => exact absurd hc hdef
    rw [ec]
    refine ⟨rfl, fun _ => ⟨funext fun k => ?_, ?_⟩⟩
    · by_cases hk : ∀ j, k = some j → j < x ∨ x + ps.length ≤ j
      · rw [hd2 k hk, henv k hk, h2 k hk]
      · cases k with
        | none => exact absurd (fun j hj => by cases hj) hk
        | some k =>
          have hk' : x ≤ k ∧ k < x + ps.length := by
            refine Classical.byContradiction fun h => hk fun j hj => ?_
            cases hj
            omega
          rw [hd1 k hk'.1 hk'.2, hs k hk'.1 hk'.2]
    · rw [h3] at hE hEd
      have e1 := hE.trans (hEd.frame (callS P throws s.mem.nextBlock [] ps).2.1 (callS P throws s.mem.nextBlock [] ps).2.2) (Nat.le_refl _) (Nat.le_refl _)
      simpa using e1

end Rtti.CallMem
