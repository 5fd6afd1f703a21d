import Verif.Spec.CallVal
import Verif.Lemmas.CallMem
/-! Calls whose result is returned by value. -/
set_option autoImplicit false
namespace Rtti.CallMem
open VMem

theorem Has.mono {P : Prog} {s : State} {lo hi blo bhi lo' hi' blo' bhi' x t v : Nat} (h : Has P s lo hi blo bhi x t v) (h1 : lo' ≤ lo) (h2 : hi ≤ hi')
    (h3 : blo' ≤ blo) (h4 : bhi ≤ bhi') : Has P s lo' hi' blo' bhi' x t v := by
  unfold Has at h ⊢
  split
  · rw [if_pos ‹_›] at h
    obtain ⟨id, a, b, c, d⟩ := h
    exact ⟨id, a, by omega, by omega, d⟩
  · rw [if_neg ‹_›] at h
    obtain ⟨b, id, a, b', c, d, e, f, g⟩ := h
    exact ⟨b, id, a, by omega, by omega, d, by omega, by omega, g⟩

/-- `Filled`, with where it ends -/
def FilledTo (P : Prog) (s : State) (hi bhi : Nat) : (lo blo i n : Nat) → List Nat → Prop
  | lo, blo, _, 0, c => c = [] ∧ lo ≤ hi ∧ blo ≤ bhi
  | lo, blo, i, n + 1, c => ∃ mid bmid, lo ≤ mid ∧ blo ≤ bmid ∧
      ((s.env (some i) = some fresh ∧ FilledTo P s hi bhi mid bmid (i + 1) n c) ∨
        ∃ t v c', c = t :: c' ∧ Has P s lo mid blo bmid i t v ∧ FilledTo P s hi bhi mid bmid (i + 1) n c')

theorem FilledTo.filled {P : Prog} {s : State} {hi bhi n lo blo i : Nat} {c : List Nat} (h : FilledTo P s hi bhi lo blo i n c) :
    Filled P s lo blo i n c := by
  induction n generalizing lo blo i c with
  | zero => exact h.1
  | succ n ih =>
    obtain ⟨mid, bmid, h1, h2, h3⟩ := h
    exact ⟨mid, bmid, h1, h2, h3.imp (fun h => ⟨h.1, ih h.2⟩) fun ⟨t, v, c', a, b, d⟩ => ⟨t, v, c', a, b, ih d⟩⟩

theorem FilledTo.le {P : Prog} {s : State} {hi bhi n lo blo i : Nat} {c : List Nat} (h : FilledTo P s hi bhi lo blo i n c) : lo ≤ hi ∧ blo ≤ bhi := by
  induction n generalizing lo blo i c with
  | zero => exact h.2
  | succ n ih =>
    obtain ⟨mid, bmid, h1, h2, ⟨-, h3⟩ | ⟨_, _, _, -, -, h3⟩⟩ := h
    all_goals
      have := ih h3
      omega

theorem FilledTo.congr {P : Prog} {s s' : State} {hi bhi n lo blo i : Nat} {c : List Nat} (h : FilledTo P s hi bhi lo blo i n c)
    (he : ∀ k, i ≤ k → k < i + n → s'.env (some k) = s.env (some k)) (ho : ∀ id, lo ≤ id → s'.mem.objs id = s.mem.objs id)
    (hb : ∀ b, blo ≤ b → s'.mem.blocks b = s.mem.blocks b) : FilledTo P s' hi bhi lo blo i n c := by
  induction n generalizing lo blo i c with
  | zero => exact h
  | succ n ih =>
    obtain ⟨mid, bmid, h1, h2, h3⟩ := h
    have hi' : ∀ c, FilledTo P s hi bhi mid bmid (i + 1) n c → FilledTo P s' hi bhi mid bmid (i + 1) n c := fun c h =>
      ih h (fun k a b => he k (by omega) (by omega)) (fun id h => ho id (by omega)) (fun b h => hb b (by omega))
    refine ⟨mid, bmid, h1, h2, ?_⟩
    rcases h3 with ⟨h3, h4⟩ | ⟨t, v, c', e, hh, h3⟩
    · exact .inl ⟨by rw [he i (by omega) (by omega), h3], hi' _ h4⟩
    · exact .inr ⟨t, v, c', e, hh.congr (he i (by omega) (by omega)) (fun id h _ => ho id h) (fun b h _ => hb b h), hi' _ h3⟩

theorem FilledTo.empty {P : Prog} {s : State} {n hi bhi lo blo i : Nat} (h : ∀ k, i ≤ k → k < i + n → s.env (some k) = some fresh) (hl : lo ≤ hi)
    (hb : blo ≤ bhi) : FilledTo P s hi bhi lo blo i n [] := by
  induction n generalizing i with
  | zero => exact ⟨rfl, hl, hb⟩
  | succ n ih => exact ⟨lo, blo, Nat.le_refl _, Nat.le_refl _, .inl ⟨h i (by omega) (by omega), ih fun k a b => h k (by omega) (by omega)⟩⟩

/-- the end of one variant -/
theorem doDestroy_has {P : Prog} {s : State} {lo hi blo bhi x t v : Nat} (h : Has P s lo hi blo bhi x t v) :
    ∃ m, doDestroy P (some x) s = (.ok (), put (some x) none ⟨s.env, m⟩) ∧ (∀ id, hi ≤ id → m.objs id = s.mem.objs id) ∧
      (∀ b, bhi ≤ b → m.blocks b = s.mem.blocks b) ∧ Eff lo blo s.mem m [t] [] (if (P.ty t).place = .small then 0 else 1) 0 := by
  unfold Has at h
  by_cases hp : (P.ty t).place = .small
  · rw [if_pos hp] at h ⊢
    obtain ⟨id, he, hlo, hhi, hob⟩ := h
    refine ⟨Mem.dead s.mem t id, ?_, fun j hj => ?_, fun _ _ => rfl, (Eff.dead s.mem t id blo).weak hlo (Nat.le_refl _)⟩
    · simp [doDestroy, he, VMem.clear, fDestroy, hp, lift, bind, M.bind, pure, M.pure, destroyObj_eq hob, put, upd]
    · have : j ≠ id := by omega
      simp [Mem.dead, upd, this]
  · rw [if_neg hp] at h ⊢
    obtain ⟨b, id, he, hblo, hbhi, hbl, hlo, hhi, hob⟩ := h
    let m2 : Mem := { Mem.dead s.mem t id with blocks := upd s.mem.blocks b none, log := .free b :: .dtor id t :: s.mem.log }
    have hd : destroyObj t id s.mem = (.ok (), Mem.dead s.mem t id) := destroyObj_eq hob
    have hf : fDestroy P (.own t) (.block b) s.mem = (.ok (), m2) := by
      unfold fDestroy
      cases hq : (P.ty t).place with
      | small => exact absurd hq hp
      | big => simp [locate, inBlock, hbl, bind, M.bind, hd, deallocate, m2, Mem.dead]
      | array => simp [locate, inBlock, hbl, bind, M.bind, hd, deallocate, m2, Mem.dead]
    refine ⟨m2, ?_, fun j hj => ?_, fun b' hb => ?_, ⟨fun j h => ?_, fun b' h => ?_, Nat.le_refl _, Nat.le_refl _, fun q => ?_, ?_⟩⟩
    · simp [doDestroy, he, VMem.clear, lift, bind, M.bind, pure, M.pure, hf, put, upd]
    · have : j ≠ id := by omega
      simp [m2, Mem.dead, upd, this]
    · have : b' ≠ b := by omega
      simp [m2, upd, this]
    · have : j ≠ id := by omega
      simp [m2, Mem.dead, upd, this]
    · have : b' ≠ b := by omega
      simp [m2, upd, this]
    · simp only [m2, ctors, dtors, List.countP_cons, List.countP_nil]
      omega
    · simp only [m2, allocs, frees]
      omega

/-- destroying the variants leaves what was made later -/
theorem destroyAll_later {P : Prog} {n : Nat} {s s' : State} {hi bhi lo blo i : Nat} {c : List Nat} (h : FilledTo P s hi bhi lo blo i n c)
    (e : destroyAll P i n s = (.ok (), s')) :
    (∀ id, hi ≤ id → s'.mem.objs id = s.mem.objs id) ∧ ∀ b, bhi ≤ b → s'.mem.blocks b = s.mem.blocks b := by
  induction n generalizing lo blo i c s' with
  | zero =>
    cases e
    exact ⟨fun _ _ => rfl, fun _ _ => rfl⟩
  | succ n ih =>
    obtain ⟨mid, bmid, h1, h2, h3⟩ := h
    have key : ∀ c', FilledTo P s hi bhi mid bmid (i + 1) n c' → ∃ s1, destroyAll P (i + 1) n s = (.ok (), s1) ∧ s1.env (some i) = s.env (some i) ∧
        (∀ id, id < mid → s1.mem.objs id = s.mem.objs id) ∧ (∀ b, b < bmid → s1.mem.blocks b = s.mem.blocks b) ∧
        doDestroy P (some i) s1 = (.ok (), s') := by
      intro c' hc
      obtain ⟨s1, e1, -, ho, hE⟩ := destroyAll_spec hc.filled
      refine ⟨s1, e1, ho _ fun j hj => by cases hj; omega, hE.objs, hE.blocks, ?_⟩
      simp only [destroyAll, seq, e1] at e
      exact e
    rcases h3 with ⟨h3, h4⟩ | ⟨t, v, c', rfl, hh, h4⟩
    · obtain ⟨s1, e1, he, -, -, ed⟩ := key _ h4
      have : s'.mem = s1.mem := by
        simp only [doDestroy, he, h3, VMem.clear, fresh, fDestroy, lift, bind, M.bind, pure, M.pure] at ed
        cases ed
        rfl
      rw [this]
      exact ih h4 e1
    · obtain ⟨s1, e1, he, ho, hb, ed⟩ := key _ h4
      have hh' : Has P s1 lo mid blo bmid i t v := hh.congr he (fun id _ h => ho id h) (fun b _ h => hb b h)
      obtain ⟨m, ed', hm1, hm2, -⟩ := doDestroy_has hh'
      rw [ed] at ed'
      have : s'.mem = m := by cases ed'; rfl
      have hle := h4.le
      obtain ⟨a, b⟩ := ih h4 e1
      rw [this]
      exact ⟨fun id h => by rw [hm1 id (by omega), a id h], fun x h => by rw [hm2 x (by omega), b x h]⟩

/-- the result -/
def Result (P : Prog) (s s' : State) (lo blo y t : Nat) : Out Nat → Prop
  | .ok v => Has P s' lo s'.mem.nextObj blo s'.mem.nextBlock y t v
  | _ => s'.env (some y) = s.env (some y)

theorem giveBack_spec {P : Prog} {t : Nat} (h : (P.ty t).place ≠ .array) (hc : (P.ty t).copyable = true ∨ (P.ty t).movable = true) (y v : Nat)
    (s : State) :
    ∃ s', giveBack P y t v s = (toUnit (resultS P t s.mem.nextBlock v).1, s') ∧ (resultS P t s.mem.nextBlock v).1 ≠ .ub ∧
      ((resultS P t s.mem.nextBlock v).1 ≠ .terminated →
        (∀ k, k ≠ some y → s'.env k = s.env k) ∧ Result P s s' s.mem.nextObj s.mem.nextBlock y t (resultS P t s.mem.nextBlock v).1 ∧
        Eff s.mem.nextObj s.mem.nextBlock s.mem s'.mem [] (inResult P t (resultS P t s.mem.nextBlock v).1).1 0
          ((resultS P t s.mem.nextBlock v).2 + (inResult P t (resultS P t s.mem.nextBlock v).1).2)) := by
  have hok : ((P.ty t).copyable || (true && (P.ty t).movable)) = true := by
    rcases hc with h | h <;> simp [h]
  let m1 := s.mem.born t v
  have hr1 : m1.objs s.mem.nextObj = some ⟨t, v⟩ := by simp [m1, Mem.born, upd]
  have hborn : born t v s.mem = (.ok s.mem.nextObj, m1) := rfl
  have hnv : newValue P (some y) t v true ⟨s.env, m1⟩ = lift (fMoveConstruct P t v) (fun c => put (some y) (some ⟨.own t, c⟩)) ⟨s.env, m1⟩ := by
    rw [newValue, if_pos hok]
    rfl
  have hdrop : ∀ (e : Option Nat → Option Var) (m : Mem) (w : Nat), m.objs s.mem.nextObj = some ⟨t, w⟩ →
      drop t s.mem.nextObj ⟨e, m⟩ = (.ok (), ⟨e, Mem.dead m t s.mem.nextObj⟩) := by
    intro e m w hw
    simp [drop, lift, destroyObj_eq hw]
  have hE1 : Eff s.mem.nextObj s.mem.nextBlock s.mem m1 [] [t] 0 0 := Eff.born s.mem t v
  have hdead : ∀ m, Eff s.mem.nextObj s.mem.nextBlock m (Mem.dead m t s.mem.nextObj) [t] [] 0 0 := fun m => Eff.dead m t _ _
  have hgb : ∀ r, newValue P (some y) t v true ⟨s.env, m1⟩ = r → giveBack P y t v s = finally' (fun _ => r) (drop t s.mem.nextObj) ⟨s.env, m1⟩ := by
    intro r hr
    simp [giveBack, bindM, hborn, finally', hr]
  unfold resultS
  by_cases hp : (P.ty t).place = .small
  · rw [if_neg (fun h => h.1 hp)]
    rw [moveS_eq]
    cases hv : moveO P t v with
    | none =>
      have e : newValue P (some y) t v true ⟨s.env, m1⟩ = (if (P.ty t).nothrowMove then .terminated else .threw, ⟨s.env, m1⟩) := by
        rw [hnv, lift, fMove_small hp, hv]
        cases (P.ty t).nothrowMove <;> rfl
      rw [hgb _ e]
      simp only [promised]
      cases (P.ty t).nothrowMove
      · refine ⟨⟨s.env, Mem.dead m1 t s.mem.nextObj⟩, ?_, nofun, fun _ => ⟨fun _ _ => rfl, rfl, ?_⟩⟩
        · simp [finally', hdrop s.env m1 v hr1, toUnit]
        · simp only [Bool.false_eq_true, if_false, hp, if_true, inResult]
          exact hE1.trans (hdead m1) (Nat.le_refl _) (Nat.le_refl _)
      · exact ⟨_, rfl, nofun, fun h => absurd rfl h⟩
    | some v' =>
      have e : newValue P (some y) t v true ⟨s.env, m1⟩ = (.ok (), put (some y) (some ⟨.own t, .obj m1.nextObj⟩) ⟨s.env, m1.born t v'⟩) := by
        rw [hnv, lift, fMove_small hp, hv]
      rw [hgb _ e]
      simp only [promised]
      have ho : (m1.born t v').objs s.mem.nextObj = some ⟨t, v⟩ := by
        simp [m1, Mem.born, upd]
      refine ⟨⟨upd s.env (some y) (some ⟨.own t, .obj m1.nextObj⟩), Mem.dead (m1.born t v') t s.mem.nextObj⟩, ?_, nofun, fun _ => ⟨fun k hk => ?_, ?_, ?_⟩⟩
      · simp [finally', put, hdrop _ _ v ho, toUnit]
      · simp [upd, hk]
      · rw [Result, Has, if_pos hp]
        refine ⟨m1.nextObj, by simp [upd], by simp [m1, Mem.born], by simp [Mem.dead, Mem.born], ?_⟩
        simp [m1, Mem.dead, Mem.born, upd]
      · simp only [inResult, hp, if_true]
        have e2 := ((Eff.born m1 t v').frame [t] 0).weak (lo' := s.mem.nextObj) (blo' := s.mem.nextBlock) (by simp [m1, Mem.born]) (by simp [m1, Mem.born])
        exact (hE1.trans e2 (Nat.le_refl _) (Nat.le_refl _)).trans ((hdead _).frame [t] 0) (Nat.le_refl _) (Nat.le_refl _)
  · have hb : (P.ty t).place = .big := by
      cases hq : (P.ty t).place with
      | small => exact absurd hq hp
      | big => rfl
      | array => exact absurd hq h
    by_cases hoom : P.oom s.mem.nextBlock = true
    · rw [if_pos ⟨hp, hoom⟩]
      have e : newValue P (some y) t v true ⟨s.env, m1⟩ =
          (if (P.ty t).nothrowMove then .terminated else .threw, ⟨s.env, { m1 with nextBlock := m1.nextBlock + 1 }⟩) := by
        rw [hnv, lift, show fMoveConstruct P t v m1 = _ from fMove_oom hb v m1 hoom]
        cases (P.ty t).nothrowMove <;> rfl
      rw [hgb _ e]
      cases (P.ty t).nothrowMove
      · refine ⟨⟨s.env, Mem.dead { m1 with nextBlock := m1.nextBlock + 1 } t s.mem.nextObj⟩, ?_, nofun, fun _ => ⟨fun _ _ => rfl, rfl, ?_⟩⟩
        · simp [finally', hdrop s.env { m1 with nextBlock := m1.nextBlock + 1 } v hr1, toUnit]
        · simp only [Bool.false_eq_true, if_false, inResult]
          have e2 : Eff s.mem.nextObj s.mem.nextBlock m1 { m1 with nextBlock := m1.nextBlock + 1 } [t] [t] 0 0 :=
            ⟨fun _ _ => rfl, fun _ _ => rfl, Nat.le_refl _, Nat.le_succ _, fun _ => by simp, by simp⟩
          exact (hE1.trans e2 (Nat.le_refl _) (Nat.le_refl _)).trans (hdead _) (Nat.le_refl _) (Nat.le_refl _)
      · exact ⟨_, rfl, nofun, fun h => absurd rfl h⟩
    · rw [if_neg fun h => hoom h.2]
      have hoom' : P.oom m1.nextBlock = false := by simpa [m1, Mem.born] using hoom
      rw [moveS_eq]
      have hroom : Eff s.mem.nextObj s.mem.nextBlock m1 (Mem.room m1) [t] [t] 0 1 :=
        ((Eff.room m1).frame [t] 0).weak (by simp [m1, Mem.born]) (by simp [m1, Mem.born])
      have hrr : (Mem.room m1).objs s.mem.nextObj = some ⟨t, v⟩ := hr1
      cases hv : moveO P t v with
      | none =>
        have e : newValue P (some y) t v true ⟨s.env, m1⟩ = (if (P.ty t).nothrowMove then .terminated else .threw, ⟨s.env, Mem.room m1⟩) := by
          rw [hnv, lift, fMove_big hb _ _ hoom', hv]
          cases (P.ty t).nothrowMove <;> rfl
        rw [hgb _ e]
        simp only [promised]
        cases (P.ty t).nothrowMove
        · refine ⟨⟨s.env, Mem.dead (Mem.room m1) t s.mem.nextObj⟩, ?_, nofun, fun _ => ⟨fun _ _ => rfl, rfl, ?_⟩⟩
          · simp [finally', hdrop s.env (Mem.room m1) v hrr, toUnit]
          · simp only [Bool.false_eq_true, if_false, hp, inResult]
            exact (hE1.trans hroom (Nat.le_refl _) (Nat.le_refl _)).trans ((hdead _).frame [] 1) (Nat.le_refl _) (Nat.le_refl _)
        · exact ⟨_, rfl, nofun, fun h => absurd rfl h⟩
      | some v' =>
        let m2 : Mem := { (Mem.room m1).born t v' with blocks := upd (Mem.room m1).blocks m1.nextBlock (some (some m1.nextObj)) }
        have e : newValue P (some y) t v true ⟨s.env, m1⟩ = (.ok (), put (some y) (some ⟨.own t, .block m1.nextBlock⟩) ⟨s.env, m2⟩) := by
          rw [hnv, lift, fMove_big hb _ _ hoom', hv]
        rw [hgb _ e]
        simp only [promised]
        have ho : m2.objs s.mem.nextObj = some ⟨t, v⟩ := by
          simp [m2, m1, Mem.room, Mem.born, upd]
        refine ⟨⟨upd s.env (some y) (some ⟨.own t, .block m1.nextBlock⟩), Mem.dead m2 t s.mem.nextObj⟩, ?_, nofun, fun _ => ⟨fun k hk => ?_, ?_, ?_⟩⟩
        · simp [finally', put, hdrop _ _ v ho, toUnit]
        · simp [upd, hk]
        · rw [Result, Has, if_neg hp]
          refine ⟨m1.nextBlock, m1.nextObj, by simp [upd], by simp [m1, Mem.born], by simp [m2, Mem.dead, Mem.room, Mem.born],
            by simp [m2, Mem.dead, upd], by simp [m1, Mem.born], by simp [m2, Mem.dead, Mem.room, Mem.born], ?_⟩
          simp [m2, m1, Mem.dead, Mem.room, Mem.born, upd]
        · simp only [inResult, hp, if_false]
          have e2 := ((Eff.born (Mem.room m1) t v').frame [t] 1).weak (lo' := s.mem.nextObj) (blo' := s.mem.nextBlock) (by simp [m1, Mem.room, Mem.born])
            (by simp [m1, Mem.room, Mem.born])
          have e3 : Eff s.mem.nextObj s.mem.nextBlock ((Mem.room m1).born t v') m2 [t, t] [t, t] 1 1 :=
            ⟨fun _ _ => rfl, fun b hb => by
              have : b ≠ m1.nextBlock := by simp [m1, Mem.born]; omega
              simp [m2, Mem.born, upd, this], Nat.le_refl _, Nat.le_refl _, fun _ => by simp [m2], by simp [m2]⟩
          exact (((hE1.trans hroom (Nat.le_refl _) (Nat.le_refl _)).trans e2 (Nat.le_refl _) (Nat.le_refl _)).trans e3 (Nat.le_refl _) (Nat.le_refl _)).trans
            ((hdead m2).frame [t] 1) (Nat.le_refl _) (Nat.le_refl _)

theorem callValS_defined {P : Prog} {t : Nat} (f : List Nat → Option Nat) (ps : List Param) (n : Nat) (vs : List Nat) :
    (callValS P t f n vs ps).1 ≠ .ub := by
  have hm : ∀ t v, moveS P t v ≠ .ub := by
    intro t v
    rw [moveS_eq]
    cases moveO P t v with
    | none => simp only [promised]; split <;> nofun
    | some _ => nofun
  have ht : ∀ t src, (toS P t src).1 ≠ .ub := by
    intro t src
    unfold toS
    cases src with
    | copy v =>
      simp only [fillS]
      cases copyS P t v with
      | none => simp only [promised]; cases (P.ty t).nothrowCopy <;> nofun
      | some w => exact hm t w
    | made v a =>
      cases a
      · nofun
      · exact hm t v
    | fails => nofun
  induction ps generalizing n vs with
  | nil =>
    unfold callValS
    cases f vs with
    | none => nofun
    | some v =>
      dsimp only
      unfold resultS
      split
      · split <;> nofun
      · have := hm t v
        revert this
        cases moveS P t v <;> simp
  | cons p ps ih =>
    cases p with
    | direct => exact ih _ _
    | value u src =>
      unfold callValS
      have := ht u src
      revert this
      rcases toS P u src with ⟨o, l⟩
      intro this
      cases o with
      | ok v => exact ih _ _
      | threw => nofun
      | terminated => nofun
      | ub => exact absurd rfl this
    | dummy u src =>
      unfold callValS
      have := ht u src
      revert this
      rcases toS P u src with ⟨o, l⟩
      intro this
      cases o with
      | ok v =>
        dsimp only
        split
        · split <;> nofun
        have h1 := hm u v
        cases e : moveS P u v with
        | ok v' =>
          dsimp only
          split
          · cases moveS P u v' <;> first | exact ih _ _ | nofun
          · exact ih _ _
        | threw => nofun
        | terminated => nofun
        | ub => exact absurd e h1
      | threw => nofun
      | terminated => nofun
      | ub => exact absurd rfl this

/-- what is true after the body of a call -/
def AfterVal (P : Prog) (y t i n : Nat) (s s' : State) (r : Out Nat × List Nat × Nat) : Prop :=
  ∃ c hi bhi, (∀ k, k ≠ some y → (∀ j, k = some j → j < i ∨ i + n ≤ j) → s'.env k = s.env k) ∧
    FilledTo P s' hi bhi s.mem.nextObj s.mem.nextBlock i n c ∧ Result P s s' hi bhi y t r.1 ∧
    Eff s.mem.nextObj s.mem.nextBlock s.mem s'.mem [] (r.2.1 ++ (c ++ (inResult P t r.1).1)) 0 (r.2.2 + (bigs P c + (inResult P t r.1).2))

theorem AfterVal.none {P : Prog} {y t i n : Nat} {s : State} {m : Mem} {o : Out Nat} {l : List Nat} {b : Nat}
    (h : ∀ k, i ≤ k → k < i + n → s.env (some k) = some fresh) (hE : Eff s.mem.nextObj s.mem.nextBlock s.mem m [] l 0 b) (ho : ∀ v, o ≠ .ok v) :
    AfterVal P y t i n s ⟨s.env, m⟩ (o, l, b) := by
  have hm : inResult P t o = ([], 0) := by
    cases o with
    | ok v => exact absurd rfl (ho v)
    | threw | terminated | ub => rfl
  refine ⟨[], _, _, fun _ _ _ => rfl, FilledTo.empty h (Nat.le_refl _) (Nat.le_refl _), ?_, ?_⟩
  · cases o with
    | ok v => exact absurd rfl (ho v)
    | threw | terminated | ub => rfl
  · simpa [hm, bigs] using hE

theorem bodyVal_spec {P : Prog} {y t : Nat} (h : (P.ty t).place ≠ .array) (hc : (P.ty t).copyable = true ∨ (P.ty t).movable = true)
    (f : List Nat → Option Nat) (ps : List Param) (hf : ∀ p ∈ ps, p.Fine P) :
    ∀ (n i : Nat) (acc : List (Nat × Nat)) (vs : List Nat) (s : State), s.mem.nextBlock = n → Args s.mem acc vs →
      (∀ k, i ≤ k → k < i + ps.length → s.env (some k) = some fresh) → s.env none = none → (y < i ∨ i + ps.length ≤ y) →
      ∃ s', bodyVal P y t f i acc ps s = (toUnit (callValS P t f n vs ps).1, s') ∧
        ((callValS P t f n vs ps).1 ≠ .terminated → AfterVal P y t i ps.length s s' (callValS P t f n vs ps)) := by
  induction ps with
  | nil =>
    intro n i acc vs s hb ha hs hn hy
    unfold bodyVal callValS
    rw [ha.read]
    dsimp only
    cases f vs with
    | none => exact ⟨s, rfl, fun _ => AfterVal.none (m := s.mem) hs (Eff.refl ..) nofun⟩
    | some v =>
      subst hb
      obtain ⟨s', e, hd, hr⟩ := giveBack_spec h hc y v s
      refine ⟨s', e, fun hne => ?_⟩
      obtain ⟨h1, h2, h3⟩ := hr hne
      exact ⟨[], _, _, fun k hk _ => h1 k hk, ⟨rfl, Nat.le_refl _, Nat.le_refl _⟩, h2, by simpa [bigs] using h3⟩
  | cons p ps ih =>
    intro n i acc vs s hb ha hs hn hy
    have ih := ih fun p hp => hf p (.tail _ hp)
    have hp := hf p (.head _)
    simp only [List.length_cons] at hs hy ⊢
    cases p with
    | direct =>
      obtain ⟨s', e, h⟩ := ih n (i + 1) acc vs s hb ha (fun k a b => hs k (by omega) (by omega)) hn (by omega)
      refine ⟨s', e, fun hne => ?_⟩
      obtain ⟨c, hi, bhi, henv, hF, hR, hE⟩ := h hne
      refine ⟨c, hi, bhi, fun k hky hk => henv k hky fun j hj => by have := hk j hj; omega, ?_, hR, hE⟩
      exact ⟨_, _, Nat.le_refl _, Nat.le_refl _, .inl ⟨by rw [henv _ (by simp; omega) fun j hj => by cases hj; omega]; exact hs i (by omega) (by omega), hF⟩⟩
    | value u src =>
      have ht := to_spec hp.1 src s.mem
      unfold callValS bodyVal
      rcases hto : toS P u src with ⟨o, l⟩
      rw [hto] at ht
      cases o with
      | threw =>
        obtain ⟨m', e, hE⟩ := ht
        refine ⟨⟨s.env, m'⟩, ?_, fun _ => AfterVal.none hs hE nofun⟩
        simp [bindM, e, toUnit]
      | terminated =>
        dsimp only at ht ⊢
        have : (bindM (to P u src) (fun id => finally' (bodyVal P y t f (i + 1) (acc ++ [(u, id)]) ps) (drop u id)) s).1 = .terminated := by
          unfold bindM
          revert ht
          rcases to P u src s.mem with ⟨o, m⟩
          intro ht
          cases ht
          rfl
        exact ⟨_, Prod.ext this rfl, fun h => absurd rfl h⟩
      | ub => exact ht.elim
      | ok v =>
        obtain ⟨m', id, e, hob, hlo, hhi, rfl, hE, hb'⟩ := ht
        obtain ⟨s', eb, h⟩ := ih n (i + 1) (acc ++ [(u, id)]) (vs ++ [v]) ⟨s.env, m'⟩ (hb'.trans hb) ((ha.keep hE.objs hE.nextObj).snoc hob hhi)
          (fun k a b => hs k (by omega) (by omega)) hn (by omega)
        have hdef := callValS_defined (P := P) (t := t) f ps n (vs ++ [v])
        dsimp only
        generalize callValS P t f n (vs ++ [v]) ps = r at *
        obtain ⟨ro, rl, rb⟩ := r
        dsimp only at *
        by_cases hterm : ro = .terminated
        · subst hterm
          refine ⟨s', ?_, fun h => absurd rfl h⟩
          simp [bindM, e, finally', eb, toUnit]
        · obtain ⟨c, hi, bhi, henv, hF, hR, hE2⟩ := h hterm
          have hob' : s'.mem.objs id = some ⟨u, v⟩ := by rw [hE2.objs id hhi]; exact hob
          have hd : drop u id s' = (.ok (), ⟨s'.env, Mem.dead s'.mem u id⟩) := by simp [drop, lift, destroyObj_eq hob']
          have hle : m'.nextObj ≤ hi := hF.le.1
          refine ⟨⟨s'.env, Mem.dead s'.mem u id⟩, ?_, fun _ => ⟨c, hi, bhi, fun k hky hk => henv k hky fun j hj => by have := hk j hj; omega, ?_, ?_, ?_⟩⟩
          · simp only [bindM, e, finally', eb]
            cases ro with
            | ok _ => simp [hd, toUnit]
            | threw => simp [hd, toUnit]
            | terminated => exact absurd rfl hterm
            | ub => exact absurd rfl hdef
          · refine ⟨m'.nextObj, m'.nextBlock, hE.nextObj, hE.nextBlock, .inl ⟨?_, ?_⟩⟩
            · change s'.env (some i) = _
              rw [henv _ (by simp; omega) fun j hj => by cases hj; omega]
              exact hs i (by omega) (by omega)
            · refine hF.congr (fun _ _ _ => rfl) (fun j hj => ?_) fun _ _ => rfl
              have hj : m'.nextObj ≤ j := hj
              have : j ≠ id := by omega
              simp [Mem.dead, upd, this]
          · cases ro with
            | ok w =>
              exact Has.congr (s := s') hR rfl (fun j hj _ => by
                have : j ≠ id := by omega
                simp [Mem.dead, upd, this]) fun _ _ _ => rfl
            | threw | terminated | ub => exact hR
          · have e1 := hE.trans (hE2.frame [u] 0) hE.nextObj hE.nextBlock
            have e2 := (Eff.dead s'.mem u id s.mem.nextBlock).frame (rl ++ (c ++ (inResult P t ro).1)) (rb + (bigs P c + (inResult P t ro).2))
            have e1' := e1.perm (k' := (rl ++ (c ++ (inResult P t ro).1)) ++ [u]) (fun _ => rfl) (fun q => by
              simp only [List.countP_append]
              omega)
            simp only [Nat.zero_add] at e1'
            have e3 := e1'.trans e2 hlo (Nat.le_refl _)
            simpa using e3
    | dummy u src =>
      have ht := to_spec hp.1 src s.mem
      unfold callValS bodyVal
      let next : Nat → Step := fun r => seq (store P u i r) fun s =>
        match inDummy P u i s with
        | .ok id => bodyVal P y t f (i + 1) (acc ++ [(u, id)]) ps s
        | _ => (.ub, s)
      rcases hto : toS P u src with ⟨o, l⟩
      rw [hto] at ht
      change ∃ s', bindM (to P u src) next s = _ ∧ _
      cases o with
      | threw =>
        obtain ⟨m', e, hE⟩ := ht
        refine ⟨⟨s.env, m'⟩, ?_, fun _ => AfterVal.none hs hE nofun⟩
        simp [bindM, e, toUnit]
      | terminated =>
        dsimp only at ht ⊢
        have : (bindM (to P u src) next s).1 = .terminated := by
          unfold bindM
          revert ht
          rcases to P u src s.mem with ⟨o, m⟩
          intro ht
          cases ht
          rfl
        exact ⟨_, Prod.ext this rfl, fun h => absurd rfl h⟩
      | ub => exact ht.elim
      | ok v =>
        obtain ⟨m', r, e, hob, hlo, hhi, rfl, hE, hb'⟩ := ht
        have ebind : bindM (to P u src) next s = next r ⟨s.env, m'⟩ := by simp [bindM, e]
        dsimp only
        rw [ebind]
        have rest : ∀ (n' : Nat) (s1 : State) (k w : Nat) (lost : List Nat), s1.mem.nextBlock = n' → store P u i r ⟨s.env, m'⟩ = (.ok (), s1) → (∀ k, k ≠ some i → s1.env k = s.env k) →
            Has P s1 m'.nextObj s1.mem.nextObj m'.nextBlock s1.mem.nextBlock i u w → Eff r m'.nextBlock m' s1.mem [u] (lost ++ [u]) 0 k →
            (k = if (P.ty u).place = .small then 0 else 1) →
            ∃ s', next r ⟨s.env, m'⟩ = (toUnit (callValS P t f n' (vs ++ [w]) ps).1, s') ∧
              ((callValS P t f n' (vs ++ [w]) ps).1 ≠ .terminated →
                AfterVal P y t i (ps.length + 1) s s' ((callValS P t f n' (vs ++ [w]) ps).1, lost ++ (callValS P t f n' (vs ++ [w]) ps).2.1,
                  (callValS P t f n' (vs ++ [w]) ps).2.2)) := by
          intro n' s1 k w lost hb1 es henv1 hH hE1 hk
          obtain ⟨id, hid, hid1, hid2, hid3⟩ := hH.bound hp.1
          have ha1 : Args s1.mem acc vs := ha.keep (fun j hj => by
            rw [hE1.objs j (by omega)]
            exact hE.objs j hj) (Nat.le_trans hE.nextObj hE1.nextObj)
          obtain ⟨s', eb, h⟩ := ih n' (i + 1) (acc ++ [(u, id)]) (vs ++ [w]) s1 hb1 (ha1.snoc hid3 hid2)
            (fun k a b => by rw [henv1 _ (by simp; omega)]; exact hs k (by omega) (by omega))
            (by rw [henv1 none nofun]; exact hn) (by omega)
          refine ⟨s', by simp [next, seq, es, hid, eb], fun hne => ?_⟩
          generalize callValS P t f n' (vs ++ [w]) ps = R at *
          obtain ⟨ro, rl, rb⟩ := R
          dsimp only at *
          obtain ⟨c, hi, bhi, henv, hF, hR, hE2⟩ := h hne
          refine ⟨u :: c, hi, bhi, fun k hky hk => ?_, ?_, ?_, ?_⟩
          · rw [henv k hky fun j hj => by have := hk j hj; omega, henv1 k fun e => by have := hk i e; omega]
          · refine ⟨s1.mem.nextObj, s1.mem.nextBlock, Nat.le_trans hE.nextObj hE1.nextObj, Nat.le_trans hE.nextBlock hE1.nextBlock,
              .inr ⟨u, w, c, rfl, ?_, hF⟩⟩
            have hH' : Has P s' m'.nextObj s1.mem.nextObj m'.nextBlock s1.mem.nextBlock i u w :=
              hH.congr (henv _ (by simp; omega) fun j hj => by cases hj; omega) (fun id _ h => hE2.objs id h) (fun b _ h => hE2.blocks b h)
            exact hH'.mono hE.nextObj (Nat.le_refl _) hE.nextBlock (Nat.le_refl _)
          · cases ro with
            | ok w => exact hR
            | threw | terminated | ub =>
              have hR : s'.env (some y) = s1.env (some y) := hR
              change s'.env (some y) = s.env (some y)
              rw [hR, henv1 _ (by simp; omega)]
          · have e1 := hE.trans hE1 hlo hE.nextBlock
            have e2 := e1.trans (by simpa using hE2.frame (lost ++ [u]) k) (Nat.le_trans hE.nextObj hE1.nextObj) (Nat.le_trans hE.nextBlock hE1.nextBlock)
            have e3 : k + (rb + (bigs P c + (inResult P t ro).2)) = rb + (bigs P (u :: c) + (inResult P t ro).2) := by
              rw [hk]
              simp only [bigs]
              omega
            rw [e3] at e2
            exact e2.perm (fun _ => rfl) fun q => by
              simp only [List.countP_append, List.countP_cons, List.countP_nil]
              omega
        have stop : (store P u i r ⟨s.env, m'⟩).1 = .terminated → (next r ⟨s.env, m'⟩).1 = .terminated := by
          intro hst
          simp only [next, seq]
          revert hst
          rcases store P u i r ⟨s.env, m'⟩ with ⟨o, m⟩
          intro hst
          cases hst
          rfl
        by_cases hoom : (P.ty u).place ≠ .small ∧ P.oom n = true
        · rw [if_pos hoom]
          have hst := store_oom hp.1 hp.2 (s := ⟨s.env, m'⟩) (x := i) hob (by rw [← hb, ← hb'] at hoom; exact hoom)
          cases hnt : (P.ty u).nothrowMove with
          | true =>
            rw [if_pos hnt] at hst
            exact ⟨_, Prod.ext (stop hst) rfl, fun h => absurd rfl h⟩
          | false =>
            rw [if_neg (by rw [hnt]; nofun)] at hst
            obtain ⟨m2, es, hE1⟩ := hst
            exact ⟨⟨s.env, m2⟩, by simp [next, seq, es, toUnit], fun _ => AfterVal.none hs (hE.trans hE1 hlo hE.nextBlock) nofun⟩
        rw [if_neg hoom]
        have hst := store_spec hp.1 hp.2 (s := ⟨s.env, m'⟩) (x := i) (hs i (by omega) (by omega)) hn hob hhi
          (by rw [← hb, ← hb'] at hoom; exact hoom)
        cases hmv : moveS P u v with
        | ok v' =>
          rw [hmv] at hst
          dsimp only at hst ⊢
          by_cases hsm : (P.ty u).place = .small
          · rw [if_pos hsm] at hst ⊢
            cases hmv2 : moveS P u v' with
            | ok v2 =>
              rw [hmv2] at hst
              obtain ⟨s1, es, henv1, hH, hE1, hb1⟩ := hst
              exact rest n s1 0 v2 [u] (hb1.trans (hb'.trans hb)) es henv1 hH hE1 (by rw [if_pos hsm])
            | threw | terminated | ub =>
              rw [hmv2] at hst
              exact ⟨_, Prod.ext (stop hst) rfl, fun h => absurd rfl h⟩
          · rw [if_neg hsm] at hst ⊢
            obtain ⟨s1, es, henv1, hH, hE1, hb1⟩ := hst
            exact rest (n + 1) s1 1 v' [] (by rw [hb1, hb', hb]) es henv1 hH hE1 (by rw [if_neg hsm])
        | threw =>
          rw [hmv] at hst
          obtain ⟨m2, es, hE1⟩ := hst
          refine ⟨⟨s.env, m2⟩, by simp [next, seq, es, toUnit], fun _ => AfterVal.none hs ?_ nofun⟩
          exact hE.trans hE1 hlo hE.nextBlock
        | terminated =>
          rw [hmv] at hst
          exact ⟨_, Prod.ext (stop hst) rfl, fun h => absurd rfl h⟩
        | ub => rw [hmv] at hst; exact hst.elim

/-- a whole call -/
theorem callVal_spec {P : Prog} {y t : Nat} (h : (P.ty t).place ≠ .array) (hc : (P.ty t).copyable = true ∨ (P.ty t).movable = true)
    (f : List Nat → Option Nat) (ps : List Param) (hf : ∀ p ∈ ps, p.Fine P) (x : Nat) (s : State)
    (hs : ∀ k, x ≤ k → k < x + ps.length → s.env (some k) = none) (hn : s.env none = none) (hy : y < x ∨ x + ps.length ≤ y) :
    ∃ s', callVal P y t f x ps s = (toUnit (callValS P t f s.mem.nextBlock [] ps).1, s') ∧
      ((callValS P t f s.mem.nextBlock [] ps).1 ≠ .terminated → (∀ k, k ≠ some y → s'.env k = s.env k) ∧
        Result P s s' s.mem.nextObj s.mem.nextBlock y t (callValS P t f s.mem.nextBlock [] ps).1 ∧
        Eff s.mem.nextObj s.mem.nextBlock s.mem s'.mem []
          ((callValS P t f s.mem.nextBlock [] ps).2.1 ++ (inResult P t (callValS P t f s.mem.nextBlock [] ps).1).1) 0
          ((callValS P t f s.mem.nextBlock [] ps).2.2 + (inResult P t (callValS P t f s.mem.nextBlock [] ps).1).2)) := by
  obtain ⟨h1, h2, h3⟩ := newAll_env ps.length x s
  obtain ⟨s', e, hA⟩ := bodyVal_spec h hc f ps hf s.mem.nextBlock x [] [] (newAll x ps.length s) (by rw [h3]) trivial h1
    (by rw [h2 none nofun]; exact hn) hy
  have hdef := callValS_defined (P := P) (t := t) f ps s.mem.nextBlock []
  generalize callValS P t f s.mem.nextBlock [] ps = R at *
  obtain ⟨ro, rl, rb⟩ := R
  dsimp only at *
  by_cases hterm : ro = .terminated
  · subst hterm
    exact ⟨s', by simp [callVal, finally', e, toUnit], fun h => absurd rfl h⟩
  · obtain ⟨c, hi, bhi, henv, hF, hR, hE⟩ := hA hterm
    obtain ⟨s'', ed, hd1, hd2, hEd⟩ := destroyAll_spec hF.filled
    obtain ⟨hl1, hl2⟩ := destroyAll_later hF ed
    have hle := hF.le
    refine ⟨s'', ?_, fun _ => ⟨fun k hky => ?_, ?_, ?_⟩⟩
    · unfold callVal finally'
      rw [e]
      cases ro with
      | ok _ => simp [ed, toUnit]
      | threw => simp [ed, toUnit]
      | terminated => exact absurd rfl hterm
      | ub => exact absurd rfl hdef
    · by_cases hk : ∀ j, k = some j → j < x ∨ x + ps.length ≤ j
      · rw [hd2 k hk, henv k hky hk, h2 k hk]
      · cases k with
        | none => exact absurd (fun j hj => by cases hj) hk
        | some k =>
          have hk' : x ≤ k ∧ k < x + ps.length := by
            refine Classical.byContradiction fun h => hk fun j hj => ?_
            cases hj
            omega
          rw [hd1 k hk'.1 hk'.2, hs k hk'.1 hk'.2]
    · rw [h3] at hle
      have hyk : s''.env (some y) = s'.env (some y) := hd2 _ fun j hj => by cases hj; exact hy
      cases ro with
      | ok w =>
        have hR : Has P s' hi s'.mem.nextObj bhi s'.mem.nextBlock y t w := hR
        exact (hR.congr hyk (fun id h _ => hl1 id h) (fun b h _ => hl2 b h)).mono hle.1 hEd.nextObj hle.2 hEd.nextBlock
      | threw | terminated | ub =>
        have hR : s'.env (some y) = (newAll x ps.length s).env (some y) := hR
        change s''.env (some y) = s.env (some y)
        rw [hyk, hR, h2 _ fun j hj => by cases hj; exact hy]
    · rw [h3] at hE hEd
      have e0 := hE.perm (k' := (rl ++ (inResult P t ro).1) ++ c) (fun _ => rfl) fun q => by
        simp only [List.countP_append]
        omega
      have e0' : Eff s.mem.nextObj s.mem.nextBlock s.mem s'.mem [] ((rl ++ (inResult P t ro).1) ++ c) 0 ((rb + (inResult P t ro).2) + bigs P c) := by
        rw [show (rb + (inResult P t ro).2) + bigs P c = rb + (bigs P c + (inResult P t ro).2) by omega]
        exact e0
      have e1 := e0'.trans (hEd.frame (rl ++ (inResult P t ro).1) (rb + (inResult P t ro).2)) (Nat.le_refl _) (Nat.le_refl _)
      simpa using e1

end Rtti.CallMem
