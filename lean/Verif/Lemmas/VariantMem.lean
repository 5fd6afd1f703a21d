import Verif.Spec.VariantMem
import Verif.Lemmas.World
/-! The ownership invariant of variants. -/
set_option autoImplicit false
set_option linter.unusedSectionVars false
namespace Rtti.VMem

variable {K : Type} [DecidableEq K]

structure Inv (P : Prog) (env : K → Option Var) (m : Mem) : Prop where
  olt : ∀ id o, m.objs id = some o → id < m.nextObj
  blt : ∀ b c, m.blocks b = some c → b < m.nextBlock
  clt : ∀ b id, m.blocks b = some (some id) → id < m.nextObj
  small : ∀ k t c, env k = some ⟨.own t, c⟩ → (P.ty t).place = .small → ∃ id v, c = .obj id ∧ m.objs id = some ⟨t, v⟩
  big : ∀ k t c, env k = some ⟨.own t, c⟩ → (P.ty t).place ≠ .small →
    ∃ b id v, c = .block b ∧ m.blocks b = some (some id) ∧ m.objs id = some ⟨t, v⟩
  refs : ∀ k t c, env k = some ⟨.ref t, c⟩ → ∃ a, c = .ext a
  uo : ∀ k k' t t' id, env k = some ⟨.own t, .obj id⟩ → env k' = some ⟨.own t', .obj id⟩ → k = k'
  ubl : ∀ k k' t t' b, env k = some ⟨.own t, .block b⟩ → env k' = some ⟨.own t', .block b⟩ → k = k'
  uc : ∀ b b' id, m.blocks b = some (some id) → m.blocks b' = some (some id) → b = b'
  ux : ∀ k t id b, env k = some ⟨.own t, .obj id⟩ → m.blocks b ≠ some (some id)
  home : ∀ id t v, m.objs id = some ⟨t, v⟩ → (P.ty t).place ≠ .small →
    ∃ k b, env k = some ⟨.own t, .block b⟩ ∧ m.blocks b = some (some id)

/-- every block with an object in it has an owner; the others are those in `L` -/
def Blk (L : Nat → Prop) (env : K → Option Var) (m : Mem) : Prop :=
  (∀ b, m.blocks b = some none ↔ L b) ∧ ∀ b id, m.blocks b = some (some id) → ∃ k t, env k = some ⟨.own t, .block b⟩

/-- every object has an owner -/
def Hom (env : K → Option Var) (m : Mem) : Prop := ∀ id o, m.objs id = some o →
  ∃ k t, env k = some ⟨.own t, .obj id⟩ ∨ ∃ b, env k = some ⟨.own t, .block b⟩ ∧ m.blocks b = some (some id)

/-- the content of variants is what it was -/
def Same (f : K → Prop) (env : K → Option Var) (m m' : Mem) : Prop :=
  ∀ j x, f j → env j = some x → content m' x = content m x

/-- a new object -/
def Mem.born (m : Mem) (t v : Nat) : Mem :=
  { m with objs := upd m.objs m.nextObj (some ⟨t, v⟩), nextObj := m.nextObj + 1, log := .ctor m.nextObj t :: m.log }

/-- a new value for an object -/
def Mem.set (m : Mem) (id t v : Nat) : Mem := { m with objs := upd m.objs id (some ⟨t, v⟩) }

/-- no undefined behaviour -/
def NoUB {A : Type} : Out A → Prop
  | .ub => False
  | _ => True

theorem copyVal_cases (P : Prog) (t v : Nat) (m : Mem) :
    (∃ v', (P.ty t).copyable = true ∧ (P.ty t).copy v = some v' ∧ copyVal P t v m = (.ok m.nextObj, m.born t v')) ∨
    (((P.ty t).copyable = false ∨ (P.ty t).copy v = none) ∧ copyVal P t v m = (.threw, m)) ∨
    ((P.ty t).place = .array ∧ (P.ty t).trivial = false ∧ copyVal P t v m = (.ub, m)) := by
  unfold copyVal
  split
  · simp_all
  · split
    · simp_all
    · split
      · simp_all
      · rename_i v' hv
        left
        exact ⟨v', by simp_all, hv, rfl⟩

theorem moveVal_cases (P : Prog) (t v : Nat) (m : Mem) :
    (∃ v' r, ((P.ty t).movable = true ∧ (P.ty t).move v = some (v', r) ∨ (P.ty t).movable = false ∧ (P.ty t).copyable = true ∧ (P.ty t).copy v = some v') ∧
      moveVal P t v m = (.ok (m.nextObj, r), m.born t v')) ∨
    (((P.ty t).movable = true ∧ (P.ty t).move v = none ∨
      (P.ty t).movable = false ∧ ((P.ty t).copyable = false ∨ (P.ty t).copy v = none)) ∧ moveVal P t v m = (.threw, m)) ∨
    ((P.ty t).place = .array ∧ (P.ty t).trivial = false ∧ moveVal P t v m = (.ub, m)) := by
  unfold moveVal
  split
  · split
    · simp_all
    · split
      · simp_all
      · rename_i hv
        left
        exact ⟨_, _, .inl ⟨by assumption, hv⟩, rfl⟩
  · rename_i hm
    rcases copyVal_cases P t v m with ⟨v', h1, h2, h3⟩ | ⟨h1, h3⟩ | ⟨h1, h2, h3⟩
    · left; rw [h3]; exact ⟨v', v, .inr ⟨by simpa using hm, h1, h2⟩, rfl⟩
    · right; left; rw [h3]; exact ⟨.inr ⟨by simpa using hm, h1⟩, rfl⟩
    · right; right; rw [h3]; exact ⟨h1, h2, rfl⟩

theorem copyObj_cases (P : Prog) {t id v : Nat} {m : Mem} (ho : m.objs id = some ⟨t, v⟩) :
    (∃ v', (P.ty t).copyable = true ∧ (P.ty t).copy v = some v' ∧ copyObj P t id m = (.ok m.nextObj, m.born t v')) ∨
    (((P.ty t).copyable = false ∨ (P.ty t).copy v = none) ∧ copyObj P t id m = (.threw, m)) ∨
    ((P.ty t).place = .array ∧ (P.ty t).trivial = false ∧ copyObj P t id m = (.ub, m)) := by
  have : copyObj P t id m = copyVal P t v m := by simp [copyObj, ho]
  rw [this]
  exact copyVal_cases P t v m

theorem moveObj_cases (P : Prog) {t id v : Nat} {m : Mem} (ho : m.objs id = some ⟨t, v⟩) :
    (∃ v' r, ((P.ty t).movable = true ∧ (P.ty t).move v = some (v', r) ∨ (P.ty t).movable = false ∧ (P.ty t).copyable = true ∧ (P.ty t).copy v = some v') ∧
      moveObj P t id m = (.ok m.nextObj, (m.born t v').set id t r)) ∨
    (((P.ty t).movable = true ∧ (P.ty t).move v = none ∨
      (P.ty t).movable = false ∧ ((P.ty t).copyable = false ∨ (P.ty t).copy v = none)) ∧ moveObj P t id m = (.threw, m)) ∨
    ((P.ty t).place = .array ∧ (P.ty t).trivial = false ∧ moveObj P t id m = (.ub, m)) := by
  rcases moveVal_cases P t v m with ⟨v', r, h1, h3⟩ | ⟨h1, h3⟩ | ⟨h1, h2, h3⟩
  · left; exact ⟨v', r, h1, by simp [moveObj, ho, h3, Mem.set]⟩
  · right; left; exact ⟨h1, by simp [moveObj, ho, h3]⟩
  · right; right; exact ⟨h1, h2, by simp [moveObj, ho, h3]⟩

/-- a slot that owns nothing -/
def Loose (x : Option Var) : Prop := ∀ t c, x ≠ some ⟨.own t, c⟩

omit [DecidableEq K] in
theorem Loose.none : Loose none := by intro t c; simp
theorem Loose.void {c : Cell} : Loose (some ⟨.void, c⟩) := by intro t c; simp

theorem Inv.reset {P : Prog} {env : K → Option Var} {m : Mem} (inv : Inv P env m) {k : K} {x : Option Var}
    (hk : Loose (env k)) (hx : Loose x) (hr : ∀ t c, x = some ⟨.ref t, c⟩ → ∃ a, c = .ext a) :
    Inv P (upd env k x) m := by
  obtain ⟨h1, h2, h3, h4, h5, h6, h7, h8, h9, h10, h11⟩ := inv
  unfold Loose at hk hx
  constructor <;> (try simp only [upd]) <;> grind

theorem Blk.reset {L : Nat → Prop} {env : K → Option Var} {m : Mem} (h : Blk L env m) {k : K} {x : Option Var} (hk : Loose (env k)) :
    Blk L (upd env k x) m := by
  unfold Blk at *
  unfold Loose at hk
  simp only [upd]
  grind

theorem Hom.reset {env : K → Option Var} {m : Mem} (h : Hom env m) {k : K} {x : Option Var} (hk : Loose (env k)) :
    Hom (upd env k x) m := by
  unfold Hom at *
  unfold Loose at hk
  simp only [upd]
  grind

theorem content_same {m m' : Mem} {x : Var} (h1 : ∀ t id, x = ⟨.own t, .obj id⟩ → m'.objs id = m.objs id)
    (h2 : ∀ t b, x = ⟨.own t, .block b⟩ → m'.blocks b = m.blocks b ∧ ∀ id, m.blocks b = some (some id) → m'.objs id = m.objs id) :
    content m' x = content m x := by
  obtain ⟨g, c⟩ := x
  cases g with
  | void => rfl
  | ref t => cases c <;> rfl
  | own t =>
    cases c with
    | obj id => simp only [content, h1 t id rfl]
    | block b =>
      obtain ⟨hb, ho⟩ := h2 t b rfl
      simp only [content, hb]
      split
      · rename_i id e; rw [ho id e]
      · rfl
    | _ => rfl

theorem readPtr_cases (c : Cell) (m : Mem) : ∃ o, readPtr c m = (.ok (), { m with odd := o }) := by
  cases c <;> exact ⟨_, rfl⟩

theorem Inv.moveSmall {P : Prog} {env : K → Option Var} {m : Mem} (inv : Inv P env m) {k l : K} {t id v v' r : Nat}
    {dst : Cell} (hk : env k = some ⟨.own t, .obj id⟩) (hl : env l = some ⟨.void, dst⟩) (hp : (P.ty t).place = .small)
    (ho : m.objs id = some ⟨t, v⟩) :
    Inv P (upd (upd env k (some ⟨.void, .obj id⟩)) l (some ⟨.own t, .obj m.nextObj⟩)) ((m.born t v').set id t r) := by
  obtain ⟨h1, h2, h3, h4, h5, h6, h7, h8, h9, h10, h11⟩ := inv
  have kl : k ≠ l := by rintro rfl; simp_all
  simp only [Mem.born, Mem.set]
  constructor <;> (try simp only [upd]) <;> grind

theorem Inv.moveBig {P : Prog} {env : K → Option Var} {m : Mem} (inv : Inv P env m) {k l : K} {t b : Nat}
    {dst : Cell} {o : Bool} (hk : env k = some ⟨.own t, .block b⟩) (hl : env l = some ⟨.void, dst⟩) :
    Inv P (upd (upd env k (some ⟨.void, dst⟩)) l (some ⟨.own t, .block b⟩)) { m with odd := o } := by
  obtain ⟨h1, h2, h3, h4, h5, h6, h7, h8, h9, h10, h11⟩ := inv
  have kl : k ≠ l := by rintro rfl; simp_all
  constructor <;> (try simp only [upd]) <;> grind

theorem transfer {P : Prog} {env : K → Option Var} {m : Mem} {k l : K} {mgr : Mgr} {src dst : Cell}
    (inv : Inv P env m) (hk : env k = some ⟨mgr, src⟩) (hl : env l = some ⟨.void, dst⟩) (hv : mgr ≠ .void) :
    (∃ s' d' m', fMove P mgr src dst m = (.ok (s', d'), m') ∧
      Inv P (upd (upd env k (some ⟨.void, s'⟩)) l (some ⟨mgr, d'⟩)) m' ∧
      (∀ L, Blk L env m → Blk L (upd (upd env k (some ⟨.void, s'⟩)) l (some ⟨mgr, d'⟩)) m') ∧
      Same (fun j => j ≠ k ∧ j ≠ l) env m m' ∧
      (Faithful P → content m' ⟨mgr, d'⟩ = content m ⟨mgr, src⟩)) ∨
    (¬Calm P ∧ ∃ m', fMove P mgr src dst m = (.threw, m') ∨ fMove P mgr src dst m = (.terminated, m')) := by
  have inv0 := inv
  obtain ⟨h1, h2, h3, h4, h5, h6, h7, h8, h9, h10, h11⟩ := inv0
  have kl : k ≠ l := by rintro rfl; simp_all
  cases mgr with
  | void => exact absurd rfl hv
  | ref t =>
    obtain ⟨a, rfl⟩ := h6 k t _ hk
    refine .inl ⟨_, _, _, rfl, ?_, ?_, ?_, ?_⟩
    · constructor <;> (try simp only [upd]) <;> grind
    · unfold Blk; intro L; simp only [upd]; grind
    · intro j x _ _; rfl
    · intro _; rfl
  | own t =>
    by_cases hp : (P.ty t).place = .small
    · obtain ⟨id, v, rfl, ho⟩ := h4 k t _ hk hp
      rcases moveObj_cases P ho with ⟨v', r, hm, e3⟩ | ⟨hm, e3⟩ | ⟨hm, -, e3⟩
      · refine .inl ⟨.obj id, .obj m.nextObj, (m.born t v').set id t r, ?_, ?_, ?_, ?_, ?_⟩
        · simp [fMove, hp, noexcept, bind, M.bind, pure, M.pure, e3]
        · exact inv.moveSmall hk hl hp ho
        · unfold Blk; intro L; simp only [upd, Mem.born, Mem.set]; grind
        · intro j x hj hx
          apply content_same
          · rintro t' id' rfl
            simp only [Mem.born, Mem.set, upd]
            grind
          · rintro t' b rfl
            simp only [Mem.born, Mem.set, upd]
            grind
        · intro hf
          unfold content
          simp only [Mem.born, Mem.set, upd]
          have := hf t v
          grind
      · refine .inr ⟨?_, ?_⟩
        · intro hc; have := hc.1 t v hp; grind
        · simp only [fMove, hp, noexcept, bind, M.bind, e3]
          refine ⟨m, ?_⟩
          split <;> simp
      · grind
    · obtain ⟨b, id, v, rfl, hb, ho⟩ := h5 k t _ hk hp
      obtain ⟨o, ho'⟩ := readPtr_cases dst m
      refine .inl ⟨dst, .block b, { m with odd := o }, ?_, ?_, ?_, ?_, ?_⟩
      · have : readPtr (.block b) m = (.ok (), m) := rfl
        have h' : (P.ty t).place = .big ∨ (P.ty t).place = .array := by cases h : (P.ty t).place <;> simp_all
        rcases h' with h' | h' <;> simp [fMove, h', bind, M.bind, this, ho', pure, M.pure]
      · exact inv.moveBig hk hl
      · unfold Blk; intro L; simp only [upd]; grind
      · intro j x _ _; rfl
      · intro _; rfl

theorem upd_upd {A B : Type} [DecidableEq A] (f : A → B) (a : A) (b b' : B) : upd (upd f a b) a b' = upd f a b' := by
  funext x; unfold upd; split <;> rfl

theorem upd_comm {A B : Type} [DecidableEq A] (f : A → B) {a a' : A} (h : a ≠ a') (b b' : B) :
    upd (upd f a b) a' b' = upd (upd f a' b') a b := by
  funext x; unfold upd; grind

/-- the variants and one more storage -/
def more (env : K → Option Var) (x : Option Var) : Option K → Option Var
  | none => x
  | some k => env k

theorem more_upd (env : K → Option Var) (x : Option Var) (k : K) (v : Option Var) :
    upd (more env x) (some k) v = more (upd env k v) x := by
  funext j; cases j <;> simp [upd, more]

theorem more_upd_none (env : K → Option Var) (x v : Option Var) : upd (more env x) none v = more env v := by
  funext j; cases j <;> simp [upd, more]

theorem more_inv {P : Prog} {env : K → Option Var} {m : Mem} {x : Option Var} (hx : Loose x)
    (hr : ∀ t c, x = some ⟨.ref t, c⟩ → ∃ a, c = .ext a) (inv : Inv P env m) : Inv P (more env x) m := by
  obtain ⟨h1, h2, h3, h4, h5, h6, h7, h8, h9, h10, h11⟩ := inv
  unfold Loose at hx
  constructor
  · exact h1
  · exact h2
  · exact h3
  · intro k t c e; cases k <;> simp only [more] at e <;> grind
  · intro k t c e; cases k <;> simp only [more] at e <;> grind
  · intro k t c e; cases k <;> simp only [more] at e <;> grind
  · intro k k' t t' id e e'; cases k <;> cases k' <;> simp only [more] at e e' <;> grind
  · intro k k' t t' id e e'; cases k <;> cases k' <;> simp only [more] at e e' <;> grind
  · exact h9
  · intro k t id b e; cases k <;> simp only [more] at e <;> grind
  · intro id t v e e'
    obtain ⟨k, b, hk, hb⟩ := h11 id t v e e'
    exact ⟨some k, b, hk, hb⟩

theorem less_inv {P : Prog} {env : K → Option Var} {m : Mem} {x : Option Var} (hx : Loose x) (inv : Inv P (more env x) m) :
    Inv P env m := by
  obtain ⟨h1, h2, h3, h4, h5, h6, h7, h8, h9, h10, h11⟩ := inv
  refine ⟨h1, h2, h3, fun k => h4 (some k), fun k => h5 (some k), fun k => h6 (some k), ?_, ?_, h9, fun k => h10 (some k), ?_⟩
  · intro k k' t t' id e e'
    simpa using h7 (some k) (some k') t t' id e e'
  · intro k k' t t' id e e'
    simpa using h8 (some k) (some k') t t' id e e'
  · intro id t v e e'
    obtain ⟨k, b, hk, hb⟩ := h11 id t v e e'
    cases k with
    | none => exact absurd hk (hx _ _)
    | some k => exact ⟨k, b, hk, hb⟩

theorem more_blk {L : Nat → Prop} {env : K → Option Var} {m : Mem} {x : Option Var} (h : Blk L env m) : Blk L (more env x) m := by
  refine ⟨h.1, fun b c e => ?_⟩
  obtain ⟨k, t, h⟩ := h.2 b c e
  exact ⟨some k, t, h⟩

theorem less_blk {L : Nat → Prop} {env : K → Option Var} {m : Mem} {x : Option Var} (hx : Loose x) (h : Blk L (more env x) m) :
    Blk L env m := by
  refine ⟨h.1, fun b c e => ?_⟩
  obtain ⟨k, t, h⟩ := h.2 b c e
  cases k with
  | none => exact absurd h (hx _ _)
  | some k => exact ⟨k, t, h⟩

theorem swap_fine {P : Prog} {env : K → Option Var} {m : Mem} {k l : K} {x y : Var}
    (inv : Inv P env m) (hk : env k = some x) (hl : env l = some y) (kl : k ≠ l) :
    (∃ x' y' m', swap P x y m = (.ok (x', y'), m') ∧
      Inv P (upd (upd env k (some x')) l (some y')) m' ∧
      (∀ L, Blk L env m → Blk L (upd (upd env k (some x')) l (some y')) m') ∧
      Same (fun j => j ≠ k ∧ j ≠ l) env m m' ∧
      (Faithful P → content m' x' = content m y ∧ content m' y' = content m x)) ∨
    (¬Calm P ∧ ∃ m', swap P x y m = (.terminated, m')) := by
  obtain ⟨xm, xc⟩ := x
  obtain ⟨ym, yc⟩ := y
  by_cases hx : xm = .void
  · subst hx
    by_cases hy : ym = .void
    · subst hy
      refine .inl ⟨⟨.void, xc⟩, ⟨.void, yc⟩, m, by simp [swap, noexcept, pure, M.pure], ?_, ?_, fun _ _ _ _ => rfl, fun _ => ⟨rfl, rfl⟩⟩
      · have e : upd (upd env k (some ⟨.void, xc⟩)) l (some ⟨.void, yc⟩) = env := by
          funext j; unfold upd; grind
        rw [e]; exact inv
      · have e : upd (upd env k (some ⟨.void, xc⟩)) l (some ⟨.void, yc⟩) = env := by
          funext j; unfold upd; grind
        rw [e]; exact fun _ => id
    · rcases transfer inv hl hk hy with ⟨s', d', m', e, h1, h2, h3, h4⟩ | ⟨hc, m', e⟩
      · refine .inl ⟨⟨ym, d'⟩, ⟨.void, .null⟩, m', ?_, ?_, ?_, ?_, ?_⟩
        · simp [swap, noexcept, hy, bind, M.bind, e, pure, M.pure]
        · have := h1.reset (k := l) (x := some ⟨.void, .null⟩) (by simp [upd, Ne.symm kl]; exact .void) .void (by simp)
          rwa [upd_comm _ kl, upd_upd, ← upd_comm _ kl] at this
        · intro L hb
          have := (h2 L hb).reset (k := l) (x := some ⟨.void, .null⟩) (by simp [upd, Ne.symm kl]; exact .void)
          rwa [upd_comm _ kl, upd_upd, ← upd_comm _ kl] at this
        · intro j z hj; exact h3 j z ⟨hj.2, hj.1⟩
        · intro hf; exact ⟨h4 hf, rfl⟩
      · refine .inr ⟨hc, m', ?_⟩
        rcases e with e | e <;> simp [swap, noexcept, hy, bind, M.bind, e]
  · by_cases hy : ym = .void
    · subst hy
      rcases transfer inv hk hl hx with ⟨s', d', m', e, h1, h2, h3, h4⟩ | ⟨hc, m', e⟩
      · refine .inl ⟨⟨.void, .null⟩, ⟨xm, d'⟩, m', ?_, ?_, ?_, ?_, ?_⟩
        · simp [swap, noexcept, hx, bind, M.bind, e, pure, M.pure]
        · have := h1.reset (k := k) (x := some ⟨.void, .null⟩) (by simp [upd, kl]; exact .void) .void (by simp)
          rwa [upd_comm _ (Ne.symm kl), upd_upd] at this
        · intro L hb
          have := (h2 L hb).reset (k := k) (x := some ⟨.void, .null⟩) (by simp [upd, kl]; exact .void)
          rwa [upd_comm _ (Ne.symm kl), upd_upd] at this
        · exact h3
        · intro hf; exact ⟨rfl, h4 hf⟩
      · refine .inr ⟨hc, m', ?_⟩
        rcases e with e | e <;> simp [swap, noexcept, hx, bind, M.bind, e]
    · -- both hold something: through the temporary storage
      have inv0 : Inv P (more env (some ⟨.void, .raw⟩)) m := more_inv .void (by simp) inv
      rcases transfer (k := some k) (l := none) inv0 hk rfl hx with ⟨s1, d1, m1, e1, i1, b1, c1, v1⟩ | ⟨hc, m1, e1⟩
      · rw [more_upd, more_upd_none] at i1 b1
        rcases transfer (k := some l) (l := some k) (src := yc) (dst := s1) i1 (by simp [more, upd, Ne.symm kl, hl]) (by simp [more, upd]) hy with ⟨s2, d2, m2, e2, i2, b2, c2, v2⟩ | ⟨hc, m2, e2⟩
        · rw [more_upd, more_upd] at i2 b2
          rcases transfer (k := none) (l := some l) (src := d1) (dst := s2) i2 rfl (by simp [more, upd, Ne.symm kl]) hx with ⟨s3, d3, m3, e3, i3, b3, c3, v3⟩ | ⟨hc, m3, e3⟩
          · rw [more_upd_none, more_upd] at i3 b3
            have ee : upd (upd (upd (upd env k (some ⟨.void, s1⟩)) l (some ⟨.void, s2⟩)) k (some ⟨ym, d2⟩)) l (some ⟨xm, d3⟩)
                = upd (upd env k (some ⟨ym, d2⟩)) l (some ⟨xm, d3⟩) := by
              funext j; unfold upd; grind
            rw [ee] at i3 b3
            refine .inl ⟨⟨ym, d2⟩, ⟨xm, d3⟩, m3, ?_, less_inv .void i3, fun L hb => less_blk .void (b3 L (b2 L (b1 L (more_blk hb)))), ?_, ?_⟩
            · simp [swap, noexcept, hx, hy, bind, M.bind, e1, e2, e3, pure, M.pure]
            · intro j z hj hz
              rw [c3 (some j) z ⟨by simp, by simpa using hj.2⟩ (by simp [more, upd, hj.1, hj.2, hz]),
                c2 (some j) z ⟨by simpa using hj.2, by simpa using hj.1⟩ (by simp [more, upd, hj.1, hz]),
                c1 (some j) z ⟨by simpa using hj.1, by simp⟩ hz]
            · intro hf
              constructor
              · rw [c3 (some k) _ ⟨by simp, by simpa using kl⟩ (by simp [more, upd]), v2 hf,
                  c1 (some l) _ ⟨by simpa using Ne.symm kl, by simp⟩ hl]
              · rw [v3 hf, c2 none _ ⟨by simp, by simp⟩ rfl, v1 hf]
          · refine .inr ⟨hc, m3, ?_⟩
            rcases e3 with e3 | e3 <;> simp [swap, noexcept, hx, hy, bind, M.bind, e1, e2, e3]
        · refine .inr ⟨hc, m2, ?_⟩
          rcases e2 with e2 | e2 <;> simp [swap, noexcept, hx, hy, bind, M.bind, e1, e2]
      · refine .inr ⟨hc, m1, ?_⟩
        rcases e1 with e1 | e1 <;> simp [swap, noexcept, hx, hy, bind, M.bind, e1]

end Rtti.VMem
