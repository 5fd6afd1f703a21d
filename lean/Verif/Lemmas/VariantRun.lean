import Verif.Lemmas.VariantStep
/-! Whole commands keep the ownership invariant and do what is intended. -/
set_option autoImplicit false
namespace Rtti.VMem

/-- what all variants contain, the temporary included -/
def see (s : State) (k : Option Nat) : Option Content := (s.env k).bind (content s.mem)

theorem see_some (s : State) (x : Nat) : see s (some x) = view s x := rfl

def Good (P : Prog) (s : State) : Prop := Inv P s.env s.mem

theorem Inv.content_some {K : Type} [DecidableEq K] {P : Prog} {env : K → Option Var} {m : Mem} (inv : Inv P env m) {k : K} {x : Var}
    (hk : env k = some x) : (content m x).isSome := by
  obtain ⟨g, c⟩ := x
  cases g with
  | void => rfl
  | ref t => obtain ⟨a, rfl⟩ := inv.refs k t c hk; rfl
  | own t =>
    obtain ⟨id, v, ho, h, -⟩ := inv.located hk
    rw [h]; rfl

theorem Good.live {P : Prog} {s : State} (g : Good P s) (k : Option Nat) : (see s k).isSome = (s.env k).isSome := by
  unfold see
  cases h : s.env k with
  | none => rfl
  | some x => exact Inv.content_some g h

/-- a step that sets variant `k` to contain `x` -/
def Sets (P : Prog) (s : State) (k : Option Nat) (x : Option Content) (r : Out Unit × State) : Prop :=
  (∃ v m', r = (.ok (), ⟨upd s.env k (some v), m'⟩) ∧ Good P ⟨upd s.env k (some v), m'⟩ ∧
    (∀ L, Blk L s.env s.mem → Blk L (upd s.env k (some v)) m') ∧
    (Hom s.env s.mem → Hom (upd s.env k (some v)) m') ∧
    (Faithful P → see ⟨upd s.env k (some v), m'⟩ = upd (see s) k x)) ∨
  (∃ m', r = (.threw, ⟨s.env, m'⟩) ∧ Lost s.mem m' ∧ ((∀ t, (P.ty t).place = .small) → m' = s.mem)) ∨
  (¬Calm P ∧ ∃ s', r = (.terminated, s')) ∨
  (¬PlainArrays P ∧ ∃ s', r = (.ub, s'))

theorem see_upd {s : State} {k : Option Nat} {v : Var} {m' : Mem} {x : Option Content}
    (h : Same (fun j => j ≠ k) s.env s.mem m') (hx : content m' v = x) :
    see ⟨upd s.env k (some v), m'⟩ = upd (see s) k x := by
  funext j
  by_cases hj : j = k
  · subst hj; simp [see, upd, hx]
  · simp only [see, upd_ne _ _ hj]
    cases e : s.env j with
    | none => rfl
    | some z => exact h j z hj e

theorem Sets.of_makes {P : Prog} {s : State} {k : Option Nat} {t : Nat} {x : Option Content} {f : M Cell}
    (h : Makes P s.env k s.mem t x (f s.mem)) :
    Sets P s k x (lift f (fun c => put k (some ⟨.own t, c⟩)) s) := by
  unfold lift
  rcases h with ⟨c, m', e, h1, h2, h5, h3, h4⟩ | ⟨m', e, h, h'⟩ | ⟨hc, m', e⟩ | ⟨hc, m', e⟩
  · rw [e]
    exact .inl ⟨⟨.own t, c⟩, m', rfl, h1, h2, h5, fun hf => see_upd (fun j z _ => h3 j z trivial) (h4 hf)⟩
  · rw [e]; exact .inr (.inl ⟨m', rfl, h, fun hs => h' (hs t)⟩)
  · rw [e]; exact .inr (.inr (.inl ⟨hc, _, rfl⟩))
  · rw [e]; exact .inr (.inr (.inr ⟨hc, _, rfl⟩))

theorem newEmpty_sets {P : Prog} {s : State} (g : Good P s) {k : Option Nat} (hk : Loose (s.env k)) :
    Sets P s k (some .empty) (newEmpty k s) :=
  .inl ⟨fresh, s.mem, rfl, Inv.reset g hk .void (by simp [fresh]), fun _ hb => hb.reset hk, fun hb => hb.reset hk,
    fun _ => see_upd (fun _ _ _ _ => rfl) rfl⟩

theorem newRef_sets {P : Prog} {s : State} (g : Good P s) {k : Option Nat} (hk : Loose (s.env k)) (t a : Nat) :
    Sets P s k (some (.ref t a)) (newRef k t a s) :=
  .inl ⟨_, s.mem, rfl, Inv.reset g hk (by simp [Loose]) (by rintro t c h; cases h; exact ⟨_, rfl⟩), fun _ hb => hb.reset hk, fun hb => hb.reset hk,
    fun _ => see_upd (fun _ _ _ _ => rfl) rfl⟩

theorem newValue_sets {P : Prog} {s : State} (g : Good P s) {k : Option Nat} (hk : Loose (s.env k)) {t v : Nat} {r : Bool}
    (hs : storable P t r = true) : Sets P s k (some (.val t v)) (newValue P k t v r s) := by
  have : newValue P k t v r s =
      lift (if r then fMoveConstruct P t v else fCopyConstruct P t v) (fun c => put k (some ⟨.own t, c⟩)) s := by
    unfold newValue
    exact if_pos hs
  rw [this]
  cases r
  · exact .of_makes (fCopyConstruct_makes g t v hk)
  · exact .of_makes (fMoveConstruct_makes g t v hk)

theorem newCopy_sets {P : Prog} {s : State} (g : Good P s) {k l : Option Nat} (hk : Loose (s.env k)) {y : Var}
    (hl : s.env l = some y) : Sets P s k (see s l) (newCopy P k l s) := by
  have hs : see s l = content s.mem y := by simp [see, hl]
  rw [hs]
  unfold newCopy
  rw [hl]
  dsimp only
  obtain ⟨m, c⟩ := y
  cases m with
  | void => exact newEmpty_sets g hk
  | ref t =>
    obtain ⟨a, rfl⟩ := Inv.refs g l t c hl
    exact newRef_sets g hk t a
  | own t =>
    have := Sets.of_makes (fCopy_makes g hk hl)
    have e : lift (copyOf P ⟨.own t, c⟩) (fun v => put k (some v)) s =
        lift (fCopy P (.own t) c .raw) (fun c => put k (some ⟨.own t, c⟩)) s := by
      unfold lift copyOf
      simp only [bind, M.bind, pure, M.pure]
      cases h : fCopy P (.own t) c .raw s.mem with
      | mk o m' => cases o <;> rfl
    rw [e]
    exact this

theorem doSwap_fine {P : Prog} {s : State} (g : Good P s) {k l : Option Nat} {x y : Var} (kl : k ≠ l)
    (hk : s.env k = some x) (hl : s.env l = some y) :
    (∃ x' y' m', doSwap P k l s = (.ok (), ⟨upd (upd s.env k (some x')) l (some y'), m'⟩) ∧
      Good P ⟨upd (upd s.env k (some x')) l (some y'), m'⟩ ∧
      (∀ L, Blk L s.env s.mem → Blk L (upd (upd s.env k (some x')) l (some y')) m') ∧
      (Faithful P → see ⟨upd (upd s.env k (some x')) l (some y'), m'⟩ = upd (upd (see s) k (see s l)) l (see s k))) ∨
    (¬Calm P ∧ ∃ s', doSwap P k l s = (.terminated, s')) := by
  have e0 : doSwap P k l s = lift (VMem.swap P x y) (fun v s => put l (some v.2) (put k (some v.1) s)) s := by
    unfold doSwap
    rw [hk, hl]
    exact if_neg kl
  rw [e0]
  unfold lift
  rcases swap_fine g hk hl kl with ⟨x', y', m', e, h1, h2, h3, h4⟩ | ⟨hc, m', e⟩
  · rw [e]
    refine .inl ⟨x', y', m', rfl, h1, h2, fun hf => ?_⟩
    obtain ⟨hx, hy⟩ := h4 hf
    funext j
    by_cases hjl : j = l
    · subst hjl; simp [see, upd, hk, hy]
    · by_cases hjk : j = k
      · subst hjk; simp [see, upd, kl, hl, hx]
      · rw [upd_ne _ _ hjl, upd_ne _ _ hjk]
        simp only [see, upd_ne _ _ hjl, upd_ne _ _ hjk]
        cases e : s.env j with
        | none => rfl
        | some z => exact h3 j z ⟨hjk, hjl⟩ e
  · rw [e]; exact .inr ⟨hc, _, rfl⟩

theorem doClear_fine {P : Prog} {s : State} (g : Good P s) {k : Option Nat} {x : Var} (hk : s.env k = some x) :
    ∃ m', doClear P k s = (.ok (), ⟨upd s.env k (some ⟨.void, .null⟩), m'⟩) ∧
      Good P ⟨upd s.env k (some ⟨.void, .null⟩), m'⟩ ∧
      (∀ L, Blk L s.env s.mem → Blk L (upd s.env k (some ⟨.void, .null⟩)) m') ∧
      (Hom s.env s.mem → Hom (upd s.env k (some ⟨.void, .null⟩)) m') ∧
      see ⟨upd s.env k (some ⟨.void, .null⟩), m'⟩ = upd (see s) k (some .empty) := by
  obtain ⟨m', e, h1, h2⟩ := clear_fine g hk
  refine ⟨m', ?_, (h1 _ (.inr rfl)).1, (h1 _ (.inr rfl)).2.1, (h1 _ (.inr rfl)).2.2, see_upd h2 rfl⟩
  unfold doClear lift
  rw [hk]; dsimp only; rw [e]; rfl

theorem doDestroy_fine {P : Prog} {s : State} (g : Good P s) {k : Option Nat} {x : Var} (hk : s.env k = some x) :
    ∃ m', doDestroy P k s = (.ok (), ⟨upd s.env k none, m'⟩) ∧
      Good P ⟨upd s.env k none, m'⟩ ∧ (∀ L, Blk L s.env s.mem → Blk L (upd s.env k none) m') ∧ (Hom s.env s.mem → Hom (upd s.env k none) m') ∧
      see ⟨upd s.env k none, m'⟩ = upd (see s) k none := by
  obtain ⟨m', e, h1, h2⟩ := clear_fine g hk
  refine ⟨m', ?_, (h1 _ (.inl rfl)).1, (h1 _ (.inl rfl)).2.1, (h1 _ (.inl rfl)).2.2, ?_⟩
  · unfold doDestroy lift
    rw [hk]; dsimp only; rw [e]; rfl
  · funext j
    by_cases hj : j = k
    · subst hj; simp [see, upd]
    · simp only [see, upd_ne _ _ hj]
      cases e : s.env j with
      | none => rfl
      | some z => exact h2 j z hj e

/-- how a command ends; `f` is what it should do -/
def Ends (P : Prog) (s : State) (f : (Option Nat → Option Content) → Option Nat → Option Content) (r : Out Unit × State) : Prop :=
  (∃ s', r = (.ok (), s') ∧ Good P s' ∧ s'.env none = none ∧ (∀ L, Blk L s.env s.mem → Blk L s'.env s'.mem) ∧ (Faithful P → see s' = f (see s))) ∨
  (∃ m', r = (.threw, ⟨s.env, m'⟩) ∧ Lost s.mem m' ∧ ((∀ t, (P.ty t).place = .small) → m' = s.mem)) ∨
  (¬Calm P ∧ ∃ s', r = (.terminated, s')) ∨
  (¬PlainArrays P ∧ ∃ s', r = (.ub, s'))

theorem Sets.ends {P : Prog} {s : State} {x : Nat} {c : Option Content} {r : Out Unit × State} (h0 : s.env none = none)
    (h : Sets P s (some x) c r) : Ends P s (fun σ => upd σ (some x) c) r := by
  rcases h with ⟨v, m', e, h1, h2, -, h3⟩ | h | h | h
  · exact .inl ⟨_, e, h1, by simp [upd, h0], h2, h3⟩
  · exact .inr (.inl h)
  · exact .inr (.inr (.inl h))
  · exact .inr (.inr (.inr h))

/-- the second half of an assignment -/
theorem tail_fine {P : Prog} {s : State} (g : Good P s) {x : Nat} {v z : Var} (hk : s.env none = some v) (hl : s.env (some x) = some z) :
    (∃ s', seq (doSwap P none (some x)) (doDestroy P none) s = (.ok (), s') ∧ Good P s' ∧ s'.env none = none ∧
      (∀ L, Blk L s.env s.mem → Blk L s'.env s'.mem) ∧
      (Faithful P → see s' = upd (upd (see s) (some x) (see s none)) none none)) ∨
    (¬Calm P ∧ ∃ s', seq (doSwap P none (some x)) (doDestroy P none) s = (.terminated, s')) := by
  unfold seq
  rcases doSwap_fine g (by simp) hk hl with ⟨x', y', m', e, h1, h2, h3⟩ | ⟨hc, s', e⟩
  · rw [e]
    obtain ⟨m'', e', h1', h2', -, h3'⟩ := doDestroy_fine h1 (k := none) (x := x') (by simp [upd])
    refine .inl ⟨_, e', h1', by simp [upd], fun L hb => h2' L (h2 L hb), fun hf => ?_⟩
    rw [h3', h3 hf]
    funext j
    unfold upd
    grind
  · rw [e]; exact .inr ⟨hc, s', rfl⟩

theorem viaTemp_ends {P : Prog} {s : State} {mk : Step} {x : Nat} {z : Var} {c : Option Content}
    (hx : s.env (some x) = some z) (h : Sets P s none c (mk s)) :
    Ends P s (fun σ => upd (upd σ (some x) c) none none) (viaTemp P mk x s) := by
  unfold viaTemp
  rcases h with ⟨v, m', e, h1, h2, -, h3⟩ | ⟨m', e, h⟩ | ⟨hc, s', e⟩ | ⟨hc, s', e⟩
  · have : seq mk (seq (doSwap P none (some x)) (doDestroy P none)) s =
        seq (doSwap P none (some x)) (doDestroy P none) ⟨upd s.env none (some v), m'⟩ := by
      unfold seq; rw [e]
    rw [this]
    rcases tail_fine h1 (v := v) (z := z) (by simp [upd]) (by simpa [upd] using hx) with ⟨s', e', h1', h4', h2', h3'⟩ | ⟨hc, s', e'⟩
    · refine .inl ⟨s', e', h1', h4', fun L hb => h2' L (h2 L hb), fun hf => ?_⟩
      rw [h3' hf, h3 hf]
      funext j
      unfold upd
      grind
    · exact .inr (.inr (.inl ⟨hc, s', e'⟩))
  · exact .inr (.inl ⟨m', by simp [seq, e], h⟩)
  · exact .inr (.inr (.inl ⟨hc, s', by simp [seq, e]⟩))
  · exact .inr (.inr (.inr ⟨hc, s', by simp [seq, e]⟩))

theorem newMove_fine {P : Prog} {s : State} (g : Good P s) {k l : Option Nat} {y : Var} (kl : k ≠ l)
    (hk : Loose (s.env k)) (hl : s.env l = some y) :
    (∃ x' y' m', newMove P k l s = (.ok (), ⟨upd (upd s.env k (some x')) l (some y'), m'⟩) ∧
      Good P ⟨upd (upd s.env k (some x')) l (some y'), m'⟩ ∧
      (∀ L, Blk L s.env s.mem → Blk L (upd (upd s.env k (some x')) l (some y')) m') ∧
      (Faithful P → see ⟨upd (upd s.env k (some x')) l (some y'), m'⟩ = upd (upd (see s) k (see s l)) l (some .empty))) ∨
    (¬Calm P ∧ ∃ s', newMove P k l s = (.terminated, s')) := by
  have e0 : newMove P k l s = doSwap P k l ⟨upd s.env k (some fresh), s.mem⟩ := rfl
  rw [e0]
  have g' : Good P ⟨upd s.env k (some fresh), s.mem⟩ := Inv.reset g hk .void (by simp [fresh])
  rcases doSwap_fine g' (x := fresh) (y := y) kl (by simp [upd]) (by simp [upd, Ne.symm kl, hl]) with ⟨x', y', m', e, h1, h2, h3⟩ | ⟨hc, s', e⟩
  · dsimp only at e h1 h2 h3
    rw [upd_upd] at e h1 h2 h3
    refine .inl ⟨x', y', m', e, h1, fun L hb => h2 L (hb.reset hk), fun hf => ?_⟩
    rw [h3 hf]
    have hs : see ⟨upd s.env k (some fresh), s.mem⟩ = upd (see s) k (some .empty) :=
      see_upd (fun _ _ _ _ => rfl) rfl
    rw [hs]
    funext j
    unfold upd
    grind
  · exact .inr ⟨hc, s', e⟩

/-- what a command should do, on all variants -/
def wanted (P : Prog) (c : Cmd) (σ : Option Nat → Option Content) : Option Nat → Option Content
  | none => none
  | some x => intended P c (fun y => σ (some y)) x

theorem Ends.nop {P : Prog} {s : State} (g : Good P s) (h0 : s.env none = none)
    {f : (Option Nat → Option Content) → Option Nat → Option Content} (h : f (see s) = see s) : Ends P s f (.ok (), s) :=
  .inl ⟨s, rfl, g, h0, fun _ => id, fun _ => h.symm⟩

theorem Ends.congr {P : Prog} {s : State} {f f' : (Option Nat → Option Content) → Option Nat → Option Content} {r : Out Unit × State}
    (h : Ends P s f r) (e : f (see s) = f' (see s)) : Ends P s f' r := by
  unfold Ends at *
  rwa [e] at h

theorem wanted_upd {P : Prog} {s : State} (h0 : s.env none = none) {c : Cmd} {x : Nat} {v : Option Content}
    (e : intended P c (view s) = upd (view s) x v) : wanted P c (see s) = upd (see s) (some x) v := by
  funext j
  cases j with
  | none => simp [wanted, upd, see, h0]
  | some y =>
    have : wanted P c (see s) (some y) = intended P c (view s) y := rfl
    rw [this, e]
    simp [upd, see_some]

theorem wanted_same {P : Prog} {s : State} (h0 : s.env none = none) {c : Cmd}
    (e : intended P c (view s) = view s) : wanted P c (see s) = see s := by
  funext j
  cases j with
  | none => simp [wanted, see, h0]
  | some y =>
    have : wanted P c (see s) (some y) = intended P c (view s) y := rfl
    rw [this, e]
    rfl

theorem wanted_upd2 {P : Prog} {s : State} (h0 : s.env none = none) {c : Cmd} {x y : Nat} {v w : Option Content}
    (e : intended P c (view s) = upd (upd (view s) x v) y w) :
    wanted P c (see s) = upd (upd (see s) (some x) v) (some y) w := by
  funext j
  cases j with
  | none => simp [wanted, upd, see, h0]
  | some y =>
    have : wanted P c (see s) (some y) = intended P c (view s) y := rfl
    rw [this, e]
    simp [upd, see_some]

theorem exec_ends {P : Prog} {s : State} (g : Good P s) (h0 : s.env none = none) (c : Cmd) (hc : c.plain = true) :
    Ends P s (wanted P c) (exec P c s) := by
  have lv : ∀ x, isLive s x = (view s x).isSome := fun x => (g.live (some x)).symm
  have nl : ∀ x, (view s x).isNone = !isLive s x := fun x => by rw [lv]; cases view s x <;> rfl
  have dead : ∀ x, isLive s x = false → Loose (s.env (some x)) := by
    intro x h
    cases e : s.env (some x) with
    | none => exact .none
    | some v => simp [isLive, e] at h
  have alive : ∀ x, isLive s x = true → ∃ v, s.env (some x) = some v := by
    intro x h
    exact Option.isSome_iff_exists.1 h
  have l0 : Loose (s.env none) := by rw [h0]; exact .none
  have s0 : see s none = none := by simp [see, h0]
  cases c with
  | empty x =>
    cases hx : isLive s x with
    | true =>
      simp only [exec, hx, if_true]
      exact .nop g h0 (wanted_same h0 (by simp [intended, ← lv, hx]))
    | false =>
      simp only [exec, hx, Bool.false_eq_true, if_false]
      exact (newEmpty_sets g (dead x hx)).ends h0 |>.congr (wanted_upd h0 (by simp [intended, ← lv, hx])).symm
  | value x t v r =>
    cases hx : isLive s x with
    | true =>
      simp only [exec, hx, if_true]
      exact .nop g h0 (wanted_same h0 (by simp [intended, ← lv, hx]))
    | false =>
      simp only [exec, hx, Bool.false_eq_true, if_false]
      cases hs : storable P t r with
      | false =>
        have : newValue P (some x) t v r s = (.ok (), s) := if_neg (by simpa [storable] using hs)
        rw [this]
        exact .nop g h0 (wanted_same h0 (by simp [intended, hs]))
      | true =>
        exact (newValue_sets g (dead x hx) hs).ends h0 |>.congr (wanted_upd h0 (by simp [intended, ← lv, hx, hs])).symm
  | ref x t a =>
    cases hx : isLive s x with
    | true =>
      simp only [exec, hx, if_true]
      exact .nop g h0 (wanted_same h0 (by simp [intended, ← lv, hx]))
    | false =>
      simp only [exec, hx, Bool.false_eq_true, if_false]
      exact (newRef_sets g (dead x hx) t a).ends h0 |>.congr (wanted_upd h0 (by simp [intended, ← lv, hx])).symm
  | copy x y =>
    simp only [exec]
    cases hx : isLive s x with
    | true =>
      exact .nop g h0 (wanted_same h0 (by simp [intended, ← lv, hx]))
    | false =>
      cases hy : isLive s y with
      | false =>
        exact .nop g h0 (wanted_same h0 (by simp [intended, nl, hy]))
      | true =>
        obtain ⟨v, hv⟩ := alive y hy
        refine (newCopy_sets g (dead x hx) hv).ends h0 |>.congr (wanted_upd h0 ?_).symm
        simp only [intended]
        rw [if_neg]
        · rfl
        · simp [← lv, nl, hx, hy]
  | move x y =>
    simp only [exec]
    cases hx : isLive s x with
    | true =>
      exact .nop g h0 (wanted_same h0 (by simp [intended, ← lv, hx]))
    | false =>
      cases hy : isLive s y with
      | false =>
        exact .nop g h0 (wanted_same h0 (by simp [intended, nl, hy]))
      | true =>
        obtain ⟨v, hv⟩ := alive y hy
        have xy : (some x) ≠ some y := by rintro h; cases h; simp [hx] at hy
        rcases newMove_fine g xy (dead x hx) hv with ⟨x', y', m', e, h1, h2, h3⟩ | h
        · refine .inl ⟨_, e, h1, by simp [upd, h0], h2, fun hf => ?_⟩
          rw [h3 hf]
          refine (wanted_upd2 h0 ?_).symm
          simp only [intended]
          rw [if_neg]
          · rfl
          · simp [← lv, nl, hx, hy]
        · exact .inr (.inr (.inl h))
  | assign x y =>
    simp only [exec]
    by_cases hn : (!isLive s x || !isLive s y || decide (x = y)) = true
    · rw [if_pos hn]
      refine .nop g h0 (wanted_same h0 ?_)
      simp only [intended, nl]
      by_cases hl : (!isLive s x || !isLive s y) = true
      · rw [if_pos hl]
      · rw [if_neg hl]
        have : x = y := by simpa [Bool.or_eq_true, hl] using hn
        subst this
        funext j; unfold upd; split <;> simp_all
    · rw [if_neg hn]
      have hn' : isLive s x = true ∧ isLive s y = true ∧ x ≠ y := by
        simpa [not_or, and_assoc] using hn
      obtain ⟨z, hz⟩ := alive x hn'.1
      obtain ⟨v, hv⟩ := alive y hn'.2.1
      refine viaTemp_ends hz (newCopy_sets g l0 hv) |>.congr ?_
      rw [wanted_upd h0 (x := x) (v := view s y) (by simp [intended, nl, hn'])]
      funext j
      unfold upd
      grind [see_some]
  | assignMove x y =>
    simp only [exec]
    by_cases hn : (!isLive s x || !isLive s y || decide (x = y)) = true
    · rw [if_pos hn]
      refine .nop g h0 (wanted_same h0 ?_)
      simp only [intended, nl]
      rw [if_pos hn]
    · rw [if_neg hn]
      have hn' : isLive s x = true ∧ isLive s y = true ∧ x ≠ y := by
        simpa [not_or, and_assoc] using hn
      obtain ⟨z, hz⟩ := alive x hn'.1
      obtain ⟨v, hv⟩ := alive y hn'.2.1
      rcases newMove_fine (k := none) (l := some y) g (by simp) l0 hv with ⟨x', y', m', e, h1, h2, h3⟩ | ⟨hcalm, s', e⟩
      · have e' : viaTemp P (newMove P none (some y)) x s =
            seq (doSwap P none (some x)) (doDestroy P none) ⟨upd (upd s.env none (some x')) (some y) (some y'), m'⟩ := by
          unfold viaTemp
          rw [seq, e]
        rw [e']
        rcases tail_fine (x := x) (v := x') (z := z) h1 (by simp [upd]) (by simp [upd, hn'.2.2, hz]) with ⟨s', e2, h1', h4', h2', h3'⟩ | ⟨hcalm, s', e2⟩
        · refine .inl ⟨s', e2, h1', h4', fun L hb => h2' L (h2 L hb), fun hf => ?_⟩
          rw [h3' hf, h3 hf, wanted_upd2 h0 (x := x) (y := y) (v := view s y) (w := some .empty) (by simp only [intended, nl]; rw [if_neg hn])]
          funext j
          have := hn'.2.2
          unfold upd
          grind [see_some]
        · exact .inr (.inr (.inl ⟨hcalm, s', e2⟩))
      · refine .inr (.inr (.inl ⟨hcalm, s', ?_⟩))
        simp [viaTemp, seq, e]
  | assignValue x t v r =>
    simp only [exec]
    by_cases hn : (!isLive s x || !((P.ty t).copyable || r && (P.ty t).movable)) = true
    · rw [if_pos hn]
      refine .nop g h0 (wanted_same h0 ?_)
      simp only [intended, nl, storable]
      rw [if_pos hn]
    · rw [if_neg hn]
      have hn' : isLive s x = true ∧ storable P t r = true := by
        simp only [Bool.or_eq_true, Bool.not_eq_true', not_or, Bool.not_eq_false] at hn
        exact ⟨hn.1, by simpa [storable] using hn.2⟩
      obtain ⟨z, hz⟩ := alive x hn'.1
      refine viaTemp_ends hz (newValue_sets g l0 hn'.2) |>.congr ?_
      rw [wanted_upd h0 (x := x) (v := some (.val t v)) (by simp [intended, nl, hn'])]
      funext j
      unfold upd
      grind [see_some]
  | assignRef x t a =>
    simp only [exec]
    by_cases hn : (!isLive s x) = true
    · rw [if_pos hn]
      refine .nop g h0 (wanted_same h0 ?_)
      simp only [intended, nl]
      rw [if_pos hn]
    · rw [if_neg hn]
      obtain ⟨z, hz⟩ := alive x (by simpa using hn)
      refine viaTemp_ends hz (newRef_sets g l0 t a) |>.congr ?_
      rw [wanted_upd h0 (x := x) (v := some (.ref t a)) (by simp only [intended, nl]; rw [if_neg hn])]
      funext j
      unfold upd
      grind [see_some]
  | swap x y =>
    simp only [exec]
    have xy : some x ≠ some y := by simpa [Cmd.plain] using hc
    cases hx : s.env (some x) with
    | none =>
      have : doSwap P (some x) (some y) s = (.ok (), s) := by simp [doSwap, hx]
      rw [this]
      exact .nop g h0 (wanted_same h0 (by simp [intended, nl, isLive, hx]))
    | some v =>
      cases hy : s.env (some y) with
      | none =>
        have : doSwap P (some x) (some y) s = (.ok (), s) := by simp [doSwap, hy]
        rw [this]
        exact .nop g h0 (wanted_same h0 (by simp [intended, nl, isLive, hy]))
      | some w =>
        rcases doSwap_fine g xy hx hy with ⟨x', y', m', e, h1, h2, h3⟩ | h
        · refine .inl ⟨_, e, h1, by simp [upd, h0], h2, fun hf => ?_⟩
          rw [h3 hf]
          exact (wanted_upd2 h0 (by simp [intended, nl, isLive, hx, hy]; rfl)).symm
        · exact .inr (.inr (.inl h))
  | clear x =>
    simp only [exec]
    cases hx : s.env (some x) with
    | none =>
      have : doClear P (some x) s = (.ok (), s) := by simp [doClear, hx]
      rw [this]
      exact .nop g h0 (wanted_same h0 (by simp [intended, nl, isLive, hx]))
    | some v =>
      obtain ⟨m', e, h1, h2, -, h3⟩ := doClear_fine g hx
      exact .inl ⟨_, e, h1, by simp [upd, h0], h2, fun _ => h3.trans (wanted_upd h0 (by simp [intended, nl, isLive, hx])).symm⟩
  | destroy x =>
    simp only [exec]
    cases hx : s.env (some x) with
    | none =>
      have : doDestroy P (some x) s = (.ok (), s) := by simp [doDestroy, hx]
      rw [this]
      refine .nop g h0 (wanted_same h0 ?_)
      funext j
      simp only [intended, upd]
      split
      · rename_i h; subst h; simp [view, hx]
      · rfl
    | some v =>
      obtain ⟨m', e, h1, h2, -, h3⟩ := doDestroy_fine g hx
      exact .inl ⟨_, e, h1, by simp [upd, h0], h2, fun _ => h3.trans (wanted_upd h0 (by simp [intended])).symm⟩

/-- commands that neither move nor swap -/
def Cmd.still : Cmd → Bool
  | .empty _ | .value .. | .ref .. | .copy .. | .clear _ | .destroy _ => true
  | _ => false

/-- without moves every object keeps its owner -/
theorem exec_hom {P : Prog} {s : State} (g : Good P s) (hh : Hom s.env s.mem) (c : Cmd) (hc : c.still = true) :
    (∃ s', (exec P c s = (.ok (), s') ∨ exec P c s = (.threw, s')) ∧ Hom s'.env s'.mem) ∨
    (∃ s', exec P c s = (.terminated, s')) ∨ ∃ s', exec P c s = (.ub, s') := by
  have dead : ∀ x, isLive s x = false → Loose (s.env (some x)) := by
    intro x h
    cases e : s.env (some x) with
    | none => exact .none
    | some v => simp [isLive, e] at h
  have sets : ∀ {k : Option Nat} {x : Option Content} {r : Out Unit × State}, Sets P s k x r →
      (∃ s', (r = (.ok (), s') ∨ r = (.threw, s')) ∧ Hom s'.env s'.mem) ∨ (∃ s', r = (.terminated, s')) ∨ ∃ s', r = (.ub, s') := by
    rintro k x r (⟨v, m', e, _, _, h, _⟩ | ⟨m', e, h, _⟩ | ⟨_, h⟩ | ⟨_, h⟩)
    · exact .inl ⟨_, .inl e, h hh⟩
    · exact .inl ⟨_, .inr e, Hom.lost g hh h⟩
    · exact .inr (.inl h)
    · exact .inr (.inr h)
  have nop : ∀ {r : Out Unit × State}, r = (.ok (), s) →
      (∃ s', (r = (.ok (), s') ∨ r = (.threw, s')) ∧ Hom s'.env s'.mem) ∨ (∃ s', r = (.terminated, s')) ∨ ∃ s', r = (.ub, s') :=
    fun e => .inl ⟨s, .inl e, hh⟩
  cases c with
  | empty x =>
    simp only [exec]
    split
    · exact nop rfl
    · exact sets (newEmpty_sets g (dead x (Bool.eq_false_iff.2 (by assumption))))
  | value x t v r =>
    simp only [exec]
    split
    · exact nop rfl
    · cases hs : storable P t r with
      | false => exact nop (if_neg (by simpa [storable] using hs))
      | true => exact sets (newValue_sets g (dead x (Bool.eq_false_iff.2 (by assumption))) hs)
  | ref x t a =>
    simp only [exec]
    split
    · exact nop rfl
    · exact sets (newRef_sets g (dead x (Bool.eq_false_iff.2 (by assumption))) t a)
  | copy x y =>
    simp only [exec]
    split
    · exact nop rfl
    · rename_i h
      simp only [Bool.or_eq_true, Bool.not_eq_true', not_or, Bool.not_eq_true, Bool.not_eq_false] at h
      obtain ⟨v, hv⟩ := Option.isSome_iff_exists.1 h.2
      exact sets (newCopy_sets g (dead x h.1) hv)
  | clear x =>
    simp only [exec]
    cases hx : s.env (some x) with
    | none => exact nop (by simp [doClear, hx])
    | some v =>
      obtain ⟨m', e, _, _, h, _⟩ := doClear_fine g hx
      exact .inl ⟨_, .inl e, h hh⟩
  | destroy x =>
    simp only [exec]
    cases hx : s.env (some x) with
    | none => exact nop (by simp [doDestroy, hx])
    | some v =>
      obtain ⟨m', e, _, _, h, _⟩ := doDestroy_fine g hx
      exact .inl ⟨_, .inl e, h hh⟩
  | _ => simp [Cmd.still] at hc

end Rtti.VMem
