import Verif.Lemmas.VariantMem
/-! Creating, copying and destroying variants keeps the ownership invariant. -/
set_option autoImplicit false
set_option linter.unusedSectionVars false
namespace Rtti.VMem

variable {K : Type} [DecidableEq K]

/-- a new block -/
def Mem.alloc (m : Mem) : Mem :=
  { m with blocks := upd m.blocks m.nextBlock (some none), nextBlock := m.nextBlock + 1, log := .alloc m.nextBlock :: m.log }

/-- a new block with a new object -/
def Mem.heap (m : Mem) (t v : Nat) : Mem :=
  { (m.alloc.born t v) with blocks := upd (m.alloc.born t v).blocks m.nextBlock (some (some m.nextObj)) }

/-- what a failed construction may leave behind: nothing but a block -/
inductive Lost (m : Mem) : Mem → Prop
  | nothing : Lost m m
  | tried : Lost m { m with nextBlock := m.nextBlock + 1 }
  | block : Lost m m.alloc

theorem Inv.addSmall {P : Prog} {env : K → Option Var} {m : Mem} (inv : Inv P env m) {k : K} {t v : Nat}
    (hk : Loose (env k)) (hp : (P.ty t).place = .small) :
    Inv P (upd env k (some ⟨.own t, .obj m.nextObj⟩)) (m.born t v) := by
  obtain ⟨h1, h2, h3, h4, h5, h6, h7, h8, h9, h10, h11⟩ := inv
  unfold Loose at hk
  simp only [Mem.born]
  constructor
  case small =>
    intro j t' c e hp'
    by_cases hj : j = k
    · subst hj
      rw [upd_same] at e; cases e
      exact ⟨_, v, rfl, upd_same _ _ _⟩
    · rw [upd_ne _ _ hj] at e
      obtain ⟨id, v', rfl, h⟩ := h4 j t' c e hp'
      exact ⟨id, v', rfl, (upd_ne _ _ (by have := h1 _ _ h; omega)).trans h⟩
  all_goals (try simp only [upd]) <;> grind

theorem Inv.addBig {P : Prog} {env : K → Option Var} {m : Mem} (inv : Inv P env m) {k : K} {t v : Nat}
    (hk : Loose (env k)) (hp : (P.ty t).place ≠ .small) :
    Inv P (upd env k (some ⟨.own t, .block m.nextBlock⟩)) (m.heap t v) := by
  obtain ⟨h1, h2, h3, h4, h5, h6, h7, h8, h9, h10, h11⟩ := inv
  unfold Loose at hk
  simp only [Mem.heap, Mem.alloc, Mem.born, upd_upd]
  constructor
  case big =>
    intro j t' c e hp'
    by_cases hj : j = k
    · subst hj
      rw [upd_same] at e; cases e
      exact ⟨_, _, v, rfl, upd_same _ _ _, upd_same _ _ _⟩
    · rw [upd_ne _ _ hj] at e
      obtain ⟨b, id, v', rfl, hb, h⟩ := h5 j t' c e hp'
      exact ⟨b, id, v', rfl, (upd_ne _ _ (by have := h2 _ _ hb; omega)).trans hb,
        (upd_ne _ _ (by have := h1 _ _ h; omega)).trans h⟩
  case home =>
    intro id t' v' e hp'
    dsimp only at e
    by_cases hi : id = m.nextObj
    · subst hi
      rw [upd_same] at e; cases e
      exact ⟨k, _, upd_same _ _ _, upd_same _ _ _⟩
    · rw [upd_ne _ _ hi] at e
      obtain ⟨j, b, hj, hb⟩ := h11 id t' v' e hp'
      exact ⟨j, b, by rw [upd_ne _ _ (by rintro rfl; exact hk _ _ hj)]; exact hj,
        (upd_ne _ _ (by have := h2 _ _ hb; omega)).trans hb⟩
  all_goals (try simp only [upd]) <;> grind

theorem Inv.lost {P : Prog} {env : K → Option Var} {m m' : Mem} (inv : Inv P env m) (h : Lost m m') : Inv P env m' := by
  obtain ⟨h1, h2, h3, h4, h5, h6, h7, h8, h9, h10, h11⟩ := inv
  cases h with
  | nothing => exact ⟨h1, h2, h3, h4, h5, h6, h7, h8, h9, h10, h11⟩
  | tried => exact ⟨h1, fun b c e => Nat.lt_succ_of_lt (h2 b c e), h3, h4, h5, h6, h7, h8, h9, h10, h11⟩
  | block =>
    simp only [Mem.alloc]
    constructor <;> (try simp only [upd]) <;> grind

theorem Hom.lost {P : Prog} {env : K → Option Var} {m m' : Mem} (inv : Inv P env m) (hh : Hom env m) (h : Lost m m') : Hom env m' := by
  cases h with
  | nothing => exact hh
  | tried => exact hh
  | block =>
    intro id o e
    obtain ⟨j, t, h⟩ := hh id o e
    refine ⟨j, t, ?_⟩
    rcases h with h | ⟨b, h, hb⟩
    · exact .inl h
    · exact .inr ⟨b, h, (upd_ne _ _ (by have := inv.blt b _ hb; omega)).trans hb⟩

theorem Inv.stored {P : Prog} {env : K → Option Var} {m : Mem} (inv : Inv P env m) {j : K} {x : Var} (hx : env j = some x)
    {m' : Mem} (ho : ∀ id o, m.objs id = some o → m'.objs id = some o)
    (hb : ∀ b c, m.blocks b = some c → m'.blocks b = some c) : content m' x = content m x := by
  apply content_same
  · rintro t id rfl
    by_cases hp : (P.ty t).place = .small
    · obtain ⟨id', v, e, h⟩ := inv.small j t _ hx hp
      cases e; rw [h, ho _ _ h]
    · obtain ⟨b, id', v, e, h⟩ := inv.big j t _ hx hp
      cases e
  · rintro t b rfl
    by_cases hp : (P.ty t).place = .small
    · obtain ⟨id', v, e, h⟩ := inv.small j t _ hx hp
      cases e
    · obtain ⟨b, id', v, e, h, h'⟩ := inv.big j t _ hx hp
      cases e
      refine ⟨by rw [h, hb _ _ h], fun id e => ?_⟩
      rw [h] at e; cases e
      rw [h', ho _ _ h']

theorem Inv.same {P : Prog} {env : K → Option Var} {m : Mem} (inv : Inv P env m)
    {m' : Mem} (ho : ∀ id o, m.objs id = some o → m'.objs id = some o)
    (hb : ∀ b c, m.blocks b = some c → m'.blocks b = some c) : Same (fun _ => True) env m m' :=
  fun _ _ _ hx => inv.stored hx ho hb

theorem Inv.same_lost {P : Prog} {env : K → Option Var} {m m' : Mem} (inv : Inv P env m) (h : Lost m m') :
    Same (fun _ => True) env m m' := by
  cases h with
  | nothing => exact inv.same (fun _ _ => id) (fun _ _ => id)
  | tried => exact inv.same (fun _ _ => id) (fun _ _ => id)
  | block => exact inv.same (fun _ _ => id) (fun b c e => by have := inv.blt b c e; simp only [Mem.alloc, upd]; grind)

theorem Inv.same_born {P : Prog} {env : K → Option Var} {m : Mem} (inv : Inv P env m) (t v : Nat) :
    Same (fun _ => True) env m (m.born t v) :=
  inv.same (fun id o e => by have := inv.olt id o e; simp only [Mem.born, upd]; grind) (fun _ _ => id)

theorem Inv.same_heap {P : Prog} {env : K → Option Var} {m : Mem} (inv : Inv P env m) (t v : Nat) :
    Same (fun _ => True) env m (m.heap t v) :=
  inv.same (fun id o e => by have := inv.olt id o e; simp only [Mem.heap, Mem.alloc, Mem.born, upd]; grind)
    (fun b c e => by have := inv.blt b c e; simp only [Mem.heap, Mem.alloc, Mem.born, upd]; grind)

theorem allocate_cases (P : Prog) (m : Mem) :
    (P.oom m.nextBlock = true ∧ allocate P m = (.threw, { m with nextBlock := m.nextBlock + 1 })) ∨
    (P.oom m.nextBlock = false ∧ allocate P m = (.ok m.nextBlock, m.alloc)) := by
  unfold allocate
  split
  · exact .inl ⟨by assumption, rfl⟩
  · rename_i h; exact .inr ⟨by simpa using h, rfl⟩

/-- how making a new variant `k` ends; `x` is what it must contain -/
def Makes (P : Prog) (env : K → Option Var) (k : K) (m : Mem) (t : Nat) (x : Option Content) (r : Out Cell × Mem) : Prop :=
  (∃ c m', r = (.ok c, m') ∧ Inv P (upd env k (some ⟨.own t, c⟩)) m' ∧
    (∀ L, Blk L env m → Blk L (upd env k (some ⟨.own t, c⟩)) m') ∧ (Hom env m → Hom (upd env k (some ⟨.own t, c⟩)) m') ∧
    Same (fun _ => True) env m m' ∧
    (Faithful P → content m' ⟨.own t, c⟩ = x)) ∨
  (∃ m', r = (.threw, m') ∧ Lost m m' ∧ ((P.ty t).place = .small → m' = m)) ∨
  (¬Calm P ∧ ∃ m', r = (.terminated, m')) ∨
  (¬PlainArrays P ∧ ∃ m', r = (.ub, m'))

theorem Makes.ok_small {P : Prog} {env : K → Option Var} {k : K} {m : Mem} (inv : Inv P env m) {t v v' : Nat}
    (hk : Loose (env k)) (hp : (P.ty t).place = .small) (hv : Faithful P → v' = v) :
    Makes P env k m t (some (.val t v)) (.ok (.obj m.nextObj), m.born t v') := by
  refine .inl ⟨_, _, rfl, inv.addSmall hk hp, ?_, ?_, inv.same_born t v', ?_⟩
  · intro L h
    have := h.reset (k := k) (x := some ⟨.own t, .obj m.nextObj⟩) hk
    exact this
  · intro h id o e
    by_cases hi : id = m.nextObj
    · subst hi; exact ⟨k, t, .inl (upd_same _ _ _)⟩
    · rw [show (m.born t v').objs id = m.objs id from upd_ne _ _ hi] at e
      obtain ⟨j, t', h⟩ := h id o e
      refine ⟨j, t', ?_⟩
      rw [upd_ne _ _ (by rintro rfl; rcases h with h | ⟨b, h, _⟩ <;> exact hk _ _ h)]
      exact h
  · intro hf
    simp [content, Mem.born, upd, hv hf]

theorem Makes.ok_big {P : Prog} {env : K → Option Var} {k : K} {m : Mem} (inv : Inv P env m) {t v v' : Nat}
    (hk : Loose (env k)) (hp : (P.ty t).place ≠ .small) (hv : Faithful P → v' = v) :
    Makes P env k m t (some (.val t v)) (.ok (.block m.nextBlock), m.heap t v') := by
  refine .inl ⟨_, _, rfl, inv.addBig hk hp, ?_, ?_, inv.same_heap t v', ?_⟩
  · intro L h
    refine ⟨fun b => ?_, fun b c e => ?_⟩
    · by_cases hb : b = m.nextBlock
      · subst hb
        have h1 : ¬L m.nextBlock := fun hl => by have := inv.blt _ _ ((h.1 _).2 hl); omega
        simp [Mem.heap, upd, h1]
      · rw [← h.1 b]
        simp [Mem.heap, Mem.alloc, Mem.born, upd, hb]
    by_cases hb : b = m.nextBlock
    · subst hb; exact ⟨k, t, upd_same _ _ _⟩
    · simp only [Mem.heap, Mem.alloc, Mem.born] at e
      rw [upd_ne _ _ hb, upd_ne _ _ hb] at e
      obtain ⟨j, t', hj⟩ := h.2 b c e
      exact ⟨j, t', by rw [upd_ne _ _ (by rintro rfl; exact hk _ _ hj)]; exact hj⟩
  · intro h id o e
    by_cases hi : id = m.nextObj
    · subst hi; exact ⟨k, t, .inr ⟨_, upd_same _ _ _, upd_same _ _ _⟩⟩
    · rw [show (m.heap t v').objs id = m.objs id from upd_ne _ _ hi] at e
      obtain ⟨j, t', h⟩ := h id o e
      refine ⟨j, t', ?_⟩
      rw [upd_ne _ _ (by rintro rfl; rcases h with h | ⟨b, h, _⟩ <;> exact hk _ _ h)]
      rcases h with h | ⟨b, h, hb⟩
      · exact .inl h
      · refine .inr ⟨b, h, ?_⟩
        have := inv.blt b _ hb
        simp only [Mem.heap, Mem.alloc, Mem.born, upd]
        grind
  · intro hf
    simp [content, Mem.heap, Mem.alloc, Mem.born, upd, hv hf]

theorem heap_run {P : Prog} {m m1 : Mem} {t v' : Nat} (f : M Nat) (ha : allocate P m = (.ok m.nextBlock, m.alloc))
    (h : f m.alloc = (.ok m1.nextObj, m1.born t v')) (e : m1 = m.alloc) :
    (do let b ← allocate P; let id ← f; setBlock b id; pure (.block b) : M Cell) m = (.ok (.block m.nextBlock), m.heap t v') := by
  subst e
  have hb : (m.alloc.born t v').blocks m.nextBlock = some none := upd_same _ _ _
  simp only [bind, M.bind, ha, h, setBlock, hb, pure, M.pure]
  rfl

/-- `m` with perhaps one more block -/
def After (m m' : Mem) : Prop := m'.objs = m.objs ∧ ∀ b x, m.blocks b = some x → m'.blocks b = some x

theorem After.refl (m : Mem) : After m m := ⟨rfl, fun _ _ => id⟩

theorem Inv.after {P : Prog} {env : K → Option Var} {m : Mem} (inv : Inv P env m) : After m m.alloc :=
  ⟨rfl, fun b x h => (upd_ne _ _ (by have := inv.blt b x h; omega)).trans h⟩

theorem makes_of {P : Prog} {env : K → Option Var} {k : K} {m : Mem} (inv : Inv P env m) {t v : Nat} (hk : Loose (env k))
    (f : M Nat) {q : Bool} (hq : Calm P → q = true → ∀ m', After m m' → (f m').1 ≠ .threw)
    (hf : ∀ m', After m m' → (∃ v', (Faithful P → v' = v) ∧ f m' = (.ok m'.nextObj, m'.born t v')) ∨
      f m' = (.threw, m') ∨ ¬PlainArrays P ∧ f m' = (.ub, m')) :
    Makes P env k m t (some (.val t v)) (noexcept q (match (P.ty t).place with
      | .small => do let id ← f; pure (.obj id)
      | _ => do let b ← allocate P; let id ← f; setBlock b id; pure (.block b)) m) := by
  by_cases hp : (P.ty t).place = .small
  · simp only [hp]
    rcases hf m (.refl m) with ⟨v', hv, e⟩ | e | ⟨hpl, e⟩
    · simp only [noexcept, bind, M.bind, e, pure, M.pure]
      exact .ok_small inv hk hp hv
    · simp only [noexcept, bind, M.bind, e]
      split
      · rename_i h
        refine .inr (.inr (.inl ⟨fun hc => hq hc h m (.refl m) (by rw [e]), m, rfl⟩))
      · exact .inr (.inl ⟨m, rfl, .nothing, fun _ => rfl⟩)
    · simp only [noexcept, bind, M.bind, e]
      exact .inr (.inr (.inr ⟨hpl, m, rfl⟩))
  · have h' : (P.ty t).place = .big ∨ (P.ty t).place = .array := by cases h : (P.ty t).place <;> simp_all
    have : (match (P.ty t).place with
      | .small => do let id ← f; pure (.obj id)
      | _ => do let b ← allocate P; let id ← f; setBlock b id; pure (.block b) : M Cell) =
        (do let b ← allocate P; let id ← f; setBlock b id; pure (.block b)) := by
      rcases h' with h' | h' <;> rw [h']
    rw [this]
    rcases allocate_cases P m with ⟨ho, ha⟩ | ⟨ho, ha⟩
    · simp only [noexcept, bind, M.bind, ha]
      split
      · exact .inr (.inr (.inl ⟨fun hc => by simp [hc.2.2.2] at ho, _, rfl⟩))
      · exact .inr (.inl ⟨_, rfl, .tried, fun h => absurd h hp⟩)
    · rcases hf m.alloc inv.after with ⟨v', hv, e⟩ | e | ⟨hpl, e⟩
      · unfold noexcept
        rw [heap_run f ha e rfl]
        exact .ok_big inv hk hp hv
      · simp only [noexcept, bind, M.bind, ha, e]
        split
        · rename_i h
          refine .inr (.inr (.inl ⟨fun hc => hq hc h _ inv.after (by rw [e]), _, rfl⟩))
        · exact .inr (.inl ⟨_, rfl, .block, fun h => absurd h hp⟩)
      · simp only [noexcept, bind, M.bind, ha, e]
        exact .inr (.inr (.inr ⟨hpl, _, rfl⟩))

theorem fCopyConstruct_makes {P : Prog} {env : K → Option Var} {k : K} {m : Mem} (inv : Inv P env m) (t v : Nat)
    (hk : Loose (env k)) : Makes P env k m t (some (.val t v)) (fCopyConstruct P t v m) := by
  apply makes_of inv hk (copyVal P t v)
  · intro hc hq m' _
    obtain ⟨h1, h2⟩ := hc.2.1 t v hq
    rcases copyVal_cases P t v m' with ⟨v', _, _, e⟩ | ⟨h, e⟩ | ⟨_, _, e⟩
    · rw [e]; simp
    · simp_all
    · rw [e]; simp
  · intro m' _
    rcases copyVal_cases P t v m' with ⟨v', _, h, e⟩ | ⟨_, e⟩ | ⟨h1, h2, e⟩
    · exact .inl ⟨v', fun hf => (hf t v).1 v' h, e⟩
    · exact .inr (.inl e)
    · exact .inr (.inr ⟨fun h => by simp [h t h1] at h2, e⟩)

theorem fMoveConstruct_makes {P : Prog} {env : K → Option Var} {k : K} {m : Mem} (inv : Inv P env m) (t v : Nat)
    (hk : Loose (env k)) : Makes P env k m t (some (.val t v)) (fMoveConstruct P t v m) := by
  apply makes_of inv hk (moveNew P t v)
  · intro hc hq m' _
    obtain ⟨h1, h2⟩ := hc.2.2.1 t v hq
    rcases moveVal_cases P t v m' with ⟨v', r, h, e⟩ | ⟨h, e⟩ | ⟨_, _, e⟩
    · simp [moveNew, bind, M.bind, e, pure, M.pure]
    · grind
    · simp [moveNew, bind, M.bind, e]
  · intro m' _
    rcases moveVal_cases P t v m' with ⟨v', r, h, e⟩ | ⟨_, e⟩ | ⟨h1, h2, e⟩
    · refine .inl ⟨v', fun hf => ?_, by simp [moveNew, bind, M.bind, e, pure, M.pure]⟩
      have := hf t v
      grind
    · exact .inr (.inl (by simp [moveNew, bind, M.bind, e]))
    · exact .inr (.inr ⟨fun h => by simp [h t h1] at h2, by simp [moveNew, bind, M.bind, e]⟩)

theorem Inv.located {P : Prog} {env : K → Option Var} {m : Mem} (inv : Inv P env m) {k : K} {t : Nat} {c : Cell}
    (hk : env k = some ⟨.own t, c⟩) :
    ∃ id v, m.objs id = some ⟨t, v⟩ ∧ content m ⟨.own t, c⟩ = some (.val t v) ∧
      (∀ m', (∀ b x, m.blocks b = some x → m'.blocks b = some x) → locate (P.ty t).place c m' = (.ok id, m')) := by
  by_cases hp : (P.ty t).place = .small
  · obtain ⟨id, v, rfl, ho⟩ := inv.small k t _ hk hp
    exact ⟨id, v, ho, by simp [content, ho], fun m' _ => by simp [locate, hp, pure, M.pure]⟩
  · obtain ⟨b, id, v, rfl, hb, ho⟩ := inv.big k t _ hk hp
    refine ⟨id, v, ho, by simp [content, hb, ho], fun m' h => ?_⟩
    have := h _ _ hb
    cases hq : (P.ty t).place <;> simp_all [locate, inBlock]

theorem fCopy_makes {P : Prog} {env : K → Option Var} {k l : K} {m : Mem} (inv : Inv P env m) {t : Nat} {c : Cell}
    (hk : Loose (env k)) (hl : env l = some ⟨.own t, c⟩) :
    Makes P env k m t (content m ⟨.own t, c⟩) (fCopy P (.own t) c .raw m) := by
  obtain ⟨id, v, ho, hc, hloc⟩ := inv.located hl
  rw [hc]
  have key : ∀ m', After m m' → copyFrom P t c m' = copyVal P t v m' := by
    intro m' h
    simp [copyFrom, bind, M.bind, hloc m' h.2, copyObj, h.1, ho]
  apply makes_of inv hk (copyFrom P t c)
  · intro hc hq m' h
    rw [key m' h]
    obtain ⟨h1, h2⟩ := hc.2.1 t v hq
    rcases copyVal_cases P t v m' with ⟨v', _, _, e⟩ | ⟨h, e⟩ | ⟨_, _, e⟩
    · rw [e]; simp
    · simp_all
    · rw [e]; simp
  · intro m' h
    rw [key m' h]
    rcases copyVal_cases P t v m' with ⟨v', _, h, e⟩ | ⟨_, e⟩ | ⟨h1, h2, e⟩
    · exact .inl ⟨v', fun hf => (hf t v).1 v' h, e⟩
    · exact .inr (.inl e)
    · exact .inr (.inr ⟨fun h => by simp [h t h1] at h2, e⟩)

/-- the end of what a variant holds -/
theorem clear_fine {P : Prog} {env : K → Option Var} {m : Mem} {k : K} {x : Var} (inv : Inv P env m) (hk : env k = some x) :
    ∃ m', clear P x m = (.ok ⟨.void, .null⟩, m') ∧
      (∀ z : Option Var, z = none ∨ z = some ⟨.void, .null⟩ →
        Inv P (upd env k z) m' ∧ (∀ L, Blk L env m → Blk L (upd env k z) m') ∧ (Hom env m → Hom (upd env k z) m')) ∧
      Same (fun j => j ≠ k) env m m' := by
  obtain ⟨g, c⟩ := x
  have hz : ∀ z : Option Var, z = none ∨ z = some ⟨.void, .null⟩ → Loose z ∧ ∀ t c, z = some ⟨.ref t, c⟩ → ∃ a, c = .ext a := by
    rintro z (rfl | rfl) <;> constructor <;> simp [Loose]
  cases g with
  | void =>
    refine ⟨m, rfl, fun z h => ?_, fun _ _ _ _ => rfl⟩
    exact ⟨inv.reset (by rw [hk]; exact .void) (hz z h).1 (hz z h).2, fun _ hb => hb.reset (by rw [hk]; exact .void), fun hb => hb.reset (by rw [hk]; exact .void)⟩
  | ref t =>
    refine ⟨m, rfl, fun z h => ?_, fun _ _ _ _ => rfl⟩
    exact ⟨inv.reset (by rw [hk]; simp [Loose]) (hz z h).1 (hz z h).2, fun _ hb => hb.reset (by rw [hk]; simp [Loose]), fun hb => hb.reset (by rw [hk]; simp [Loose])⟩
  | own t =>
    by_cases hp : (P.ty t).place = .small
    · obtain ⟨id, v, rfl, ho⟩ := inv.small k t _ hk hp
      refine ⟨{ m with objs := upd m.objs id none, log := .dtor id t :: m.log }, ?_, ?_, ?_⟩
      · simp [clear, fDestroy, hp, bind, M.bind, destroyObj, ho, pure, M.pure]
      · intro z h
        obtain ⟨z1, z2⟩ := hz z h
        obtain ⟨h1, h2, h3, h4, h5, h6, h7, h8, h9, h10, h11⟩ := inv
        unfold Loose at z1
        refine ⟨?_, ?_, ?_⟩
        · constructor <;> (try simp only [upd]) <;> grind
        · unfold Blk; intro L; simp only [upd]; grind
        · unfold Hom; simp only [upd]; grind
      · intro j x hj hx
        obtain ⟨h1, h2, h3, h4, h5, h6, h7, h8, h9, h10, h11⟩ := inv
        apply content_same
        · rintro t' id' rfl
          simp only [upd]; grind
        · rintro t' b rfl
          simp only [upd]; grind
    · obtain ⟨b, id, v, rfl, hb, ho⟩ := inv.big k t _ hk hp
      refine ⟨{ m with objs := upd m.objs id none, blocks := upd m.blocks b none, log := .free b :: .dtor id t :: m.log }, ?_, ?_, ?_⟩
      · have h' : (P.ty t).place = .big ∨ (P.ty t).place = .array := by cases h : (P.ty t).place <;> simp_all
        rcases h' with h' | h' <;>
        simp [clear, fDestroy, h', bind, M.bind, locate, inBlock, hb, destroyObj, ho, deallocate, pure, M.pure]
      · intro z h
        obtain ⟨z1, z2⟩ := hz z h
        obtain ⟨h1, h2, h3, h4, h5, h6, h7, h8, h9, h10, h11⟩ := inv
        unfold Loose at z1
        refine ⟨?_, ?_, ?_⟩
        · constructor <;> (try simp only [upd]) <;> grind
        · unfold Blk; intro L; simp only [upd]; grind
        · unfold Hom; simp only [upd]; grind
      · intro j x hj hx
        obtain ⟨h1, h2, h3, h4, h5, h6, h7, h8, h9, h10, h11⟩ := inv
        apply content_same
        · rintro t' id' rfl
          simp only [upd]; grind
        · rintro t' b rfl
          simp only [upd]; grind

end Rtti.VMem
