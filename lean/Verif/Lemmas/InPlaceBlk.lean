import Verif.Lemmas.InPlaceRun
/-! Blocks of programs that convert variants in place. -/
set_option autoImplicit false
namespace Rtti.InPlace
open VMem CallMem

/-- what a step that throws does to the blocks: nothing, or one more is allocated -/
structure Failed (s s' : State) : Prop where
  env : s'.env = s.env
  blocks : s'.mem.blocks = s.mem.blocks ∨ s'.mem.blocks = upd s.mem.blocks s.mem.nextBlock (some Option.none)

/-- what a step does to the blocks -/
def BlkS (s : State) (r : Out Unit × State) : Prop :=
  (r.1 = .ok () → ∀ L : Nat → Prop, Blk L s.env s.mem → Blk L r.2.env r.2.mem) ∧ (r.1 = .threw → Failed s r.2)

theorem BlkS.nop (s : State) : BlkS s (.ok (), s) := ⟨fun _ _ h => h, fun h => by cases h⟩

theorem Failed.lost {s : State} {m' : Mem} (hl : Lost s.mem m') : Failed s ⟨s.env, m'⟩ := by
  cases hl with
  | nothing => exact ⟨rfl, .inl rfl⟩
  | tried => exact ⟨rfl, .inl rfl⟩
  | block => exact ⟨rfl, .inr rfl⟩

theorem exec_blkS {P : Prog} {s0 s : State} {g : Nat → Option Obj} (h : Sim P s0 g s) (c : Cmd) : BlkS s (exec P c s) := by
  have hf := FrameS.exec P c g s0 h.apart
  rw [h.is]
  rcases exec_exact h.good h.noTemp c with ⟨s', e, -⟩ | ⟨m', e, ea, hl⟩ | ⟨s', e, ea⟩ | ⟨s', e, ea⟩
  · rw [e] at hf
    obtain ⟨h1, -⟩ := hf (by simp)
    rw [h1]
    exact ⟨fun _ L hb => exec_blk h.good h.noTemp e (L := L) hb, fun h => by cases h⟩
  · rw [e] at hf
    obtain ⟨h1, -⟩ := hf (by simp)
    rw [h1]
    refine ⟨fun h => (by cases h), fun _ => ?_⟩
    obtain ⟨f1, f2⟩ := Failed.lost hl
    exact ⟨f1, f2⟩
  · rw [e] at hf
    obtain ⟨h1, -⟩ := hf (by simp)
    rw [h1]
    exact ⟨fun h => (by cases h), fun h => (by cases h)⟩
  · have hu : (exec P c (plusS s0 g)).1 = .ub := by
      rw [← h.is]
      have := exec_ub h ((Props.meant_ub P c (VMem.abs s)).1 (by rw [h.abs]; exact ea))
      exact this
    exact ⟨fun h => (by rw [hu] at h; cases h), fun h => (by rw [hu] at h; cases h)⟩

theorem convert_blkS {P : Prog} {s0 s : State} {g : Nat → Option Obj} (h : Sim P s0 g s) (x t : Nat) (how : Held → Src) : BlkS s (convert P x t how s) := by
  have eenv : s.env = s0.env := by rw [h.is]; rfl
  cases ex : s.env (some x) with
  | none =>
    have e3 : convert P x t how s = (.ok (), s) := by simp [convert, ex]
    rw [e3]; exact .nop s
  | some var =>
    have ex0 : s0.env (some x) = some var := by rw [← eenv]; exact ex
    obtain ⟨a, ha⟩ := Option.isSome_iff_exists.1 (Inv.content_some h.good ex0)
    have hlook : look P var s.mem = (.ok (heldOf a), s.mem) := by
      rw [h.is]; exact look_is h.good g ex0 ha
    by_cases hcond : (P.ty t).place ≠ .array ∧ ((P.ty t).copyable || (P.ty t).movable) = true
    · have harr := hcond.1
      have e3 : convert P x t how s = bindM (to P t (comesFrom t how a)) (fun r => store P t x r) s := by
        simp only [convert, ex, hcond, if_true, ne_eq, not_false_eq_true, and_self]
        simp only [bindM, hlook, source_heldOf]
      have hts := to_spec harr (comesFrom t how a) s.mem
      have htidy := Tidy.to P t (comesFrom t how a) s.mem h.below
      rw [e3]
      rcases hto : toS P t (comesFrom t how a) with ⟨o, l⟩
      rw [hto] at hts
      cases o with
      | threw =>
        obtain ⟨m', e, hE⟩ := hts
        rw [e] at htidy
        have : bindM (to P t (comesFrom t how a)) (fun r => store P t x r) s = (.threw, ⟨s.env, m'⟩) := by simp only [bindM, e]
        rw [this]
        exact ⟨fun h => (by cases h), fun _ => ⟨rfl, .inl htidy.1⟩⟩
      | terminated =>
        dsimp only at hts
        simp only [bindM]
        rcases e : to P t (comesFrom t how a) s.mem with ⟨o, m⟩
        rw [e] at hts
        dsimp only at hts
        subst hts
        exact ⟨fun h => (by cases h), fun h => (by cases h)⟩
      | ub => exact hts.elim
      | ok v =>
        obtain ⟨m', r, e, hr, hrl, hrn, rfl, hE, -⟩ := hts
        rw [e] at htidy
        obtain ⟨s0', g', hs, hvw0, hg⟩ := h.more hE.objs hE.nextObj htidy.1 htidy.2.1 htidy.2.2
        have hgr : g' r = some ⟨t, v⟩ := by rw [hg r hrl]; exact hr
        have est : bindM (to P t (comesFrom t how a)) (fun r => store P t x r) s =
            finally' (viaTemp P (newValue P Option.none t v true) x) (drop t r) ⟨s.env, m'⟩ := by
          simp only [bindM, e, store, hr]
        rw [est]
        have eis : (⟨s.env, m'⟩ : State) = plusS s0' g' := hs.is
        have eb : m'.blocks = s0'.mem.blocks := by rw [State.mk.injEq] at eis; rw [eis.2]; rfl
        have enb : m'.nextBlock = s0'.mem.nextBlock := by rw [State.mk.injEq] at eis; rw [eis.2]; rfl
        have een : s.env = s0'.env := by rw [State.mk.injEq] at eis; exact eis.1
        have tb : m'.blocks = s.mem.blocks := htidy.1
        have tn : m'.nextBlock = s.mem.nextBlock := htidy.2.1
        have hlive : isLive s0' x = true := by simp [isLive, ← een, ex]
        have hex : exec P (.assignValue x t v true) s0' = viaTemp P (newValue P Option.none t v true) x s0' := by
          simp only [exec, hlive, Bool.true_and, hcond.2, Bool.not_true, Bool.or_self, Bool.false_eq_true, if_false]
        have hf := FrameS.viaTemp P (FrameS.newValue P Option.none t v true) x g' s0' hs.apart
        have hexa := exec_exact hs.good hs.noTemp (.assignValue x t v true)
        have hblk := fun s2 => exec_blk (P := P) hs.good hs.noTemp (c := .assignValue x t v true) (s' := s2)
        rw [hex] at hexa hblk
        rw [eis]
        rcases hexa with ⟨s2, e2, gd2, h2, ea, hc⟩ | ⟨m2, e2, ea, hl⟩ | ⟨s2, e2, ea⟩ | ⟨s2, e2, ea⟩
        · rw [e2] at hf
          obtain ⟨h1, hap⟩ := hf (by simp)
          have hd : drop t r (plusS s2 g') = (.ok (), ⟨s2.env, Mem.dead (plus s2.mem g') t r⟩) := by
            have ho : (plus s2.mem g').objs r = some ⟨t, v⟩ := by
              have hn : s2.mem.objs r = Option.none := (hap r _ hgr).1
              simp [plus, hn, hgr]
            simp [drop, lift, plusS, destroyObj_eq ho]
          refine ⟨fun _ L hb => ?_, fun h => ?_⟩
          · have hb0 : Blk L s0'.env s0'.mem := by
              unfold Blk at hb ⊢
              rw [← eb, tb, ← een]; exact hb
            have := hblk s2 e2 hb0
            simp only [finally', h1, hd]
            exact this
          · simp only [finally', h1, hd] at h; cases h
        · rw [e2] at hf
          obtain ⟨h1, hap⟩ := hf (by simp)
          have hd : drop t r (plusS ⟨s0'.env, m2⟩ g') = (.ok (), ⟨s0'.env, Mem.dead (plus m2 g') t r⟩) := by
            have ho : (plus m2 g').objs r = some ⟨t, v⟩ := by
              have hn : m2.objs r = Option.none := (hap r _ hgr).1
              simp [plus, hn, hgr]
            simp [drop, lift, plusS, destroyObj_eq ho]
          refine ⟨fun h => ?_, fun _ => ?_⟩
          · simp only [finally', h1, hd] at h; cases h
          · simp only [finally', h1, hd]
            obtain ⟨-, f2⟩ := Failed.lost hl
            refine ⟨een.symm, ?_⟩
            rw [← eb, ← enb, tb, tn] at f2
            exact f2
        · rw [e2] at hf
          obtain ⟨h1, -⟩ := hf (by simp)
          simp only [finally', h1]
          exact ⟨fun h => (by cases h), fun h => (by cases h)⟩
        · rcases (Props.meant_ub P _ _).1 ea with ⟨y, _, _, e, _⟩ | ⟨u, hm, ha, _⟩
          · cases e
          · have : u = t := by
              simp only [makes] at hm
              split at hm
              · cases hm; rfl
              · cases hm
            exact absurd (this ▸ ha) harr
    · have e3 : convert P x t how s = (.ok (), s) := by
        simp only [convert, ex, hcond, if_false]
      rw [e3]; exact .nop s

/-- the step did not succeed: an exception, or the answer no -/
def Unsuccessful (o : Out Bool) : Prop := o = .threw ∨ o = .ok false

theorem act_blkS {P : Prog} {s0 s : State} {g : Nat → Option Obj} (h : Sim P s0 g s) (a : Act) :
    ((act P a s).1 = .ok true → ∀ L : Nat → Prop, Blk L s.env s.mem → Blk L (act P a s).2.env (act P a s).2.mem) ∧
    (Unsuccessful (act P a s).1 → Failed s (act P a s).2) := by
  have key : ∀ r : Out Unit × State, BlkS s r →
      ((yes r).1 = .ok true → ∀ L : Nat → Prop, Blk L s.env s.mem → Blk L (yes r).2.env (yes r).2.mem) ∧
      (Unsuccessful (yes r).1 → Failed s (yes r).2) := by
    rintro ⟨o, s'⟩ ⟨h1, h2⟩
    cases o with
    | ok u => exact ⟨fun _ => h1 rfl, fun h => by simp [yes, Unsuccessful] at h⟩
    | threw => exact ⟨fun h => (by cases h), fun _ => h2 rfl⟩
    | _ => exact ⟨fun h => (by cases h), fun h => by simp [yes, Unsuccessful] at h⟩
  cases a with
  | cmd c => exact key _ (exec_blkS h c)
  | convert x t how => exact key _ (convert_blkS h x t how)
  | tryConvert x t how =>
    obtain ⟨h1, h2⟩ := convert_blkS h x t how
    simp only [act, tryConvert]
    rcases e : convert P x t how s with ⟨o, s'⟩
    rw [e] at h1 h2
    cases o with
    | ok u => exact ⟨fun _ => h1 rfl, fun h => by simp [Unsuccessful] at h⟩
    | threw => exact ⟨fun h => (by cases h), fun _ => h2 rfl⟩
    | _ => exact ⟨fun h => (by cases h), fun h => by simp [Unsuccessful] at h⟩

/-- blocks in use after a step that did not succeed, and not before -/
def Dropped (P : Prog) : List Act → State → Nat → Prop
  | [], _, _ => False
  | a :: as, s, b => (Unsuccessful (act P a s).1 ∧ InUse (act P a s).2.mem.log b ∧ ¬InUse s.mem.log b) ∨ Dropped P as (act P a s).2 b

theorem Failed.blk {s s' : State} (hf : Failed s s') (li : LogInv s.mem) (li' : LogInv s'.mem) {L : Nat → Prop} (hb : Blk L s.env s.mem) :
    Blk (fun b => L b ∨ InUse s'.mem.log b ∧ ¬InUse s.mem.log b) s'.env s'.mem := by
  rw [hf.env]
  rcases hf.blocks with e | e
  · refine ⟨fun b => ?_, fun b id h => hb.2 b id (by rw [← e]; exact h)⟩
    dsimp only
    rw [e, hb.1, ← li.blocks, ← li'.blocks, e]
    cases s.mem.blocks b <;> simp
  · have fresh : s.mem.blocks s.mem.nextBlock = Option.none := by
      cases hn : s.mem.blocks s.mem.nextBlock with
      | none => rfl
      | some o => exact absurd ((li.blocks _).1 (by rw [hn]; rfl)) (fun hu => Nat.lt_irrefl _ (li.blt _ hu.1))
    constructor
    · intro b
      dsimp only
      rw [← hb.1, ← li.blocks, ← li'.blocks, e]
      simp only [upd]
      by_cases hbn : b = s.mem.nextBlock
      · subst hbn; simp [fresh]
      · simp only [hbn, if_false]
        cases s.mem.blocks b <;> simp
    · intro b id hi
      rw [e] at hi
      simp only [upd] at hi
      split at hi
      · cases hi
      · exact hb.2 b id hi

theorem run_cons {P : Prog} {a : Act} {as : List Act} {s : State} {l : List (Option Bool)} (h : (run P (a :: as) s).1 = .ok l) :
    (∃ o l', (act P a s).1 = .ok o ∧ l = some o :: l' ∧ (run P as (act P a s).2).1 = .ok l' ∨
      (act P a s).1 = .threw ∧ l = Option.none :: l' ∧ (run P as (act P a s).2).1 = .ok l') ∧
    (run P (a :: as) s).2 = (run P as (act P a s).2).2 := by
  simp only [run] at h ⊢
  rcases e : act P a s with ⟨o, s'⟩
  rw [e] at h
  cases o with
  | ok b =>
    dsimp only at h ⊢
    rcases er : run P as s' with ⟨q, s2⟩
    rw [er] at h
    cases q with
    | ok l' => cases h; exact ⟨⟨b, l', .inl ⟨rfl, rfl, rfl⟩⟩, rfl⟩
    | _ => cases h
  | threw =>
    dsimp only at h ⊢
    rcases er : run P as s' with ⟨q, s2⟩
    rw [er] at h
    cases q with
    | ok l' => cases h; exact ⟨⟨true, l', .inr ⟨rfl, rfl, rfl⟩⟩, rfl⟩
    | _ => cases h
  | _ => cases h

theorem run_blk {P : Prog} (as : List Act) : ∀ {s0 s : State} {g : Nat → Option Obj} {L : Nat → Prop} {l : List (Option Bool)}, Sim P s0 g s → LogInv s.mem →
    (run P as s).1 = .ok l → Blk L s.env s.mem →
    Blk (fun b => L b ∨ Dropped P as s b) (run P as s).2.env (run P as s).2.mem := by
  induction as with
  | nil => intro s0 s g L l _ _ _ hb; simpa [Dropped, run] using hb
  | cons a as ih =>
    intro s0 s g L l h li hr hb
    have li' := keeping_act P a s li
    obtain ⟨⟨o, l', hcase⟩, er⟩ := run_cons hr
    rw [er]
    obtain ⟨N, hN⟩ := bounded [a]
    have hsim : ∃ s0' g', Sim P s0' g' (act P a s).2 := by
      rcases act_ends h a (hN a (.head _)) with ⟨b, s', s0', g', e, hs, -⟩ | ⟨s', s0', g', e, hs, -⟩ | ⟨s', e, -⟩ | ⟨s', e, -⟩
      · rw [e]; exact ⟨_, _, hs⟩
      · rw [e]; exact ⟨_, _, hs⟩
      · rw [e] at hcase; simp at hcase
      · rw [e] at hcase; simp at hcase
    obtain ⟨s0', g', hs⟩ := hsim
    have hr' : (run P as (act P a s).2).1 = .ok l' := by
      rcases hcase with ⟨_, _, h⟩ | ⟨_, _, h⟩ <;> exact h
    obtain ⟨b1, b2⟩ := act_blkS h a
    by_cases hu : Unsuccessful (act P a s).1
    · have := ih hs li' hr' ((b2 hu).blk li li' hb)
      simpa [Dropped, hu, or_assoc] using this
    · have ok : (act P a s).1 = .ok true := by
        rcases hcase with ⟨h, _⟩ | ⟨h, _⟩
        · cases o with
          | true => exact h
          | false => exact absurd (.inr h) hu
        · exact absurd (.inl h) hu
      have := ih hs li' hr' (b1 ok L hb)
      simpa [Dropped, hu] using this

theorem dropped_iff {P : Prog} {b : Nat} (as : List Act) : ∀ (s : State) (l : List (Option Bool)), (run P as s).1 = .ok l → (Dropped P as s b ↔
    ∃ cs a ds, as = cs ++ a :: ds ∧ Unsuccessful (act P a (run P cs s).2).1 ∧
      InUse (act P a (run P cs s).2).2.mem.log b ∧ ¬InUse (run P cs s).2.mem.log b) := by
  induction as with
  | nil => intro s l _; simp [Dropped]
  | cons a as ih =>
    intro s l h
    obtain ⟨⟨o, l', hcase⟩, -⟩ := run_cons h
    have hr' : (run P as (act P a s).2).1 = .ok l' := by
      rcases hcase with ⟨_, _, h⟩ | ⟨_, _, h⟩ <;> exact h
    have go : ∀ cs, (run P (a :: cs) s).2 = (run P cs (act P a s).2).2 := by
      intro cs
      simp only [run]
      rcases e : act P a s with ⟨q, s'⟩
      rw [e] at hcase
      cases q with
      | ok b =>
        dsimp only
        rcases er : run P cs s' with ⟨q, s2⟩
        cases q <;> rfl
      | threw =>
        dsimp only
        rcases er : run P cs s' with ⟨q, s2⟩
        cases q <;> rfl
      | _ => simp at hcase
    simp only [Dropped, ih _ _ hr']
    constructor
    · rintro (⟨h1, h2, h3⟩ | ⟨cs, d, ds, e, h1, h2, h3⟩)
      · exact ⟨[], a, as, rfl, h1, h2, h3⟩
      · exact ⟨a :: cs, d, ds, by rw [e]; rfl, by rw [go]; exact h1, by rw [go]; exact h2, by rw [go]; exact h3⟩
    · rintro ⟨cs, d, ds, e, h1, h2, h3⟩
      cases cs with
      | nil => cases e; exact .inl ⟨h1, h2, h3⟩
      | cons c cs =>
        cases e
        rw [go] at h1 h2 h3
        exact .inr ⟨cs, d, ds, rfl, h1, h2, h3⟩

end Rtti.InPlace
