import Verif.Lemmas.VariantRun
/-! The history of allocations and object lives is proper, whatever the program does. -/
set_option autoImplicit false
namespace Rtti.VMem

structure LogInv (m : Mem) : Prop where
  proper : Proper m.log
  blocks : ∀ b, (m.blocks b).isSome = true ↔ InUse m.log b
  objs : ∀ id t, (∃ v, m.objs id = some ⟨t, v⟩) ↔ Alive m.log id t
  blt : ∀ b, .alloc b ∈ m.log → b < m.nextBlock
  olt : ∀ id t, .ctor id t ∈ m.log → id < m.nextObj

/-- a call that keeps the history proper -/
def Keeping {A : Type} (f : M A) : Prop := ∀ m, LogInv m → LogInv (f m).2

theorem Keeping.pure {A : Type} (a : A) : Keeping (Pure.pure a : M A) := fun _ h => h
theorem Keeping.ub {A : Type} : Keeping (M.ub : M A) := fun _ h => h
theorem Keeping.bind {A B : Type} {f : M A} {g : A → M B} (hf : Keeping f) (hg : ∀ a, Keeping (g a)) : Keeping (f >>= g) := by
  intro m h
  have := hf m h
  simp only [Bind.bind, M.bind]
  split
  · rename_i e; rw [e] at this; exact hg _ _ this
  all_goals rename_i e; rw [e] at this; exact this

theorem Keeping.noexcept {A : Type} {c : Bool} {f : M A} (hf : Keeping f) : Keeping (noexcept c f) := by
  intro m h
  have := hf m h
  unfold VMem.noexcept
  split
  · rename_i e; rw [e] at this; split <;> exact this
  · exact this

theorem Keeping.allocate (P : Prog) : Keeping (allocate P) := by
  intro m h
  unfold VMem.allocate
  split
  · exact ⟨h.proper, h.blocks, h.objs, fun b e => Nat.lt_succ_of_lt (h.blt b e), h.olt⟩
  · obtain ⟨h1, h2, h3, h4, h5⟩ := h
    have hn : Ev.alloc m.nextBlock ∉ m.log := fun e => Nat.lt_irrefl _ (h4 _ e)
    have hf : Ev.free m.nextBlock ∉ m.log := by
      have : ∀ l : List Ev, Proper l → ∀ b, .free b ∈ l → Ev.alloc b ∈ l := by
        intro l
        induction l with
        | nil => simp
        | cons e l ih =>
          intro hp b hb
          cases e <;> simp only [Proper, List.mem_cons, reduceCtorEq, false_or, Ev.free.injEq, Ev.alloc.injEq] at hp hb ⊢ <;> grind
      exact fun e => hn (this _ h1 _ e)
    constructor
    · exact ⟨hn, h1⟩
    · intro b
      simp only [upd, InUse, List.mem_cons, Ev.alloc.injEq, reduceCtorEq, false_or] at h2 ⊢
      grind
    · intro id t; simpa [Alive] using h3 id t
    · intro b hb; simp only [List.mem_cons, Ev.alloc.injEq] at hb ⊢; grind
    · intro id t hi; exact h5 id t (by simpa using hi)

theorem Keeping.deallocate (b : Nat) : Keeping (deallocate b) := by
  intro m h
  unfold VMem.deallocate
  split
  · exact h
  · rename_i x hx
    obtain ⟨h1, h2, h3, h4, h5⟩ := h
    have hb := (h2 b).1 (by rw [hx]; rfl)
    constructor
    · exact ⟨hb.1, hb.2, h1⟩
    · intro b
      simp only [upd, InUse, List.mem_cons, Ev.free.injEq, reduceCtorEq, false_or] at h2 ⊢
      grind
    · intro id t; simpa [Alive] using h3 id t
    · intro b hb; exact h4 b (by simpa using hb)
    · intro id t hi; exact h5 id t (by simpa using hi)

theorem Keeping.born (t v : Nat) : Keeping (born t v) := by
  intro m h
  obtain ⟨h1, h2, h3, h4, h5⟩ := h
  have hn : ∀ t, Ev.ctor m.nextObj t ∉ m.log := fun t e => Nat.lt_irrefl _ (h5 _ _ e)
  have hf : ∀ t, Ev.dtor m.nextObj t ∉ m.log := by
    have : ∀ l : List Ev, Proper l → ∀ id t, .dtor id t ∈ l → Ev.ctor id t ∈ l := by
      intro l
      induction l with
      | nil => simp
      | cons e l ih =>
        intro hp id t hb
        cases e <;> simp only [Proper, List.mem_cons, reduceCtorEq, false_or, Ev.dtor.injEq, Ev.ctor.injEq] at hp hb ⊢ <;> grind
    exact fun t e => hn t (this _ h1 _ _ e)
  constructor
  · exact ⟨hn, h1⟩
  · intro b; simpa [InUse, VMem.born] using h2 b
  · intro id t'
    have := h3 id t'
    simp only [Alive, VMem.born, List.mem_cons, Ev.ctor.injEq, reduceCtorEq, false_or, upd] at this ⊢
    by_cases hi : id = m.nextObj
    · subst hi
      simp only [hn, hf, if_true, true_and, or_false, not_false_eq_true, and_true, Option.some.injEq, Obj.mk.injEq]
      grind
    · simp only [hi, if_false, false_and, false_or]; exact this
  · intro b hb; exact h4 b (by simpa [VMem.born] using hb)
  · intro id t hi
    simp only [VMem.born, List.mem_cons, Ev.ctor.injEq] at hi ⊢
    rcases hi with ⟨rfl, rfl⟩ | hi
    · omega
    · have := h5 _ _ hi; omega

theorem Keeping.destroyObj (t id : Nat) : Keeping (destroyObj t id) := by
  intro m h
  unfold VMem.destroyObj
  split
  · exact h
  · rename_i o ho
    split
    · rename_i ht
      obtain ⟨h1, h2, h3, h4, h5⟩ := h
      have hb := (h3 id t).1 ⟨o.val, by rw [ho, ← ht]⟩
      constructor
      · exact ⟨hb.1, hb.2, h1⟩
      · intro b; simpa [InUse] using h2 b
      · intro id' t'
        have := h3 id' t'
        simp only [Alive, List.mem_cons, Ev.dtor.injEq, reduceCtorEq, false_or, upd] at this ⊢
        by_cases hi : id' = id
        · subst hi
          simp only [if_true, reduceCtorEq, exists_false, true_and, false_iff, not_and]
          intro hc hd
          apply hd
          by_cases htt : t' = t
          · exact .inl htt
          · refine .inr ?_
            have h' := h3 id' t'
            unfold Alive at h'
            grind
        · simp only [hi, if_false, false_and, false_or]; exact this
      · intro b hb; exact h4 b (by simpa using hb)
      · intro id t hi; exact h5 id t (by simpa using hi)
    · exact h

theorem Keeping.copyVal (P : Prog) (t v : Nat) : Keeping (copyVal P t v) := by
  intro m h
  rcases copyVal_cases P t v m with ⟨v', _, _, e⟩ | ⟨_, e⟩ | ⟨_, _, e⟩ <;> rw [e]
  · exact Keeping.born t v' m h
  · exact h
  · exact h

theorem Keeping.copyObj (P : Prog) (t id : Nat) : Keeping (copyObj P t id) := by
  intro m h
  unfold VMem.copyObj
  split
  · exact h
  · split
    · exact Keeping.copyVal P t _ m h
    · exact h

theorem Keeping.moveNew (P : Prog) (t v : Nat) : Keeping (moveNew P t v) := by
  intro m h
  rcases moveVal_cases P t v m with ⟨v', r, _, e⟩ | ⟨_, e⟩ | ⟨_, _, e⟩ <;> simp only [VMem.moveNew, Bind.bind, M.bind, e, Pure.pure, M.pure]
  · exact Keeping.born t v' m h
  · exact h
  · exact h

theorem LogInv.set {m : Mem} (h : LogInv m) {id t v r : Nat} (ho : m.objs id = some ⟨t, v⟩) : LogInv (m.set id t r) := by
  obtain ⟨h1, h2, h3, h4, h5⟩ := h
  refine ⟨h1, h2, fun id' t' => ?_, h4, h5⟩
  show _ ↔ Alive m.log id' t'
  rw [← h3 id' t']
  simp only [Mem.set, upd]
  grind

theorem Keeping.moveObj (P : Prog) (t id : Nat) : Keeping (moveObj P t id) := by
  intro m h
  cases ho : m.objs id with
  | none => simp only [VMem.moveObj, ho]; exact h
  | some o =>
    by_cases ht : o.type = t
    · have ho' : m.objs id = some ⟨t, o.val⟩ := by rw [ho, ← ht]
      rcases moveObj_cases P ho' with ⟨v', r, _, e⟩ | ⟨_, e⟩ | ⟨_, _, e⟩ <;> rw [e]
      · by_cases hi : id = m.nextObj
        · exact absurd ((h.objs id t).1 ⟨_, ho'⟩).1 (fun hm => by have := h.olt _ _ hm; omega)
        · exact (Keeping.born t v' m h).set (v := o.val) ((upd_ne _ _ hi).trans ho')
      · exact h
      · exact h
    · simp only [VMem.moveObj, ho, ht, if_false]; exact h

theorem Keeping.setBlock (b id : Nat) : Keeping (setBlock b id) := by
  intro m h
  unfold VMem.setBlock
  split
  · exact h
  · rename_i x hx
    obtain ⟨h1, h2, h3, h4, h5⟩ := h
    refine ⟨h1, fun b' => ?_, h3, h4, h5⟩
    rw [← h2 b']
    simp only [upd]
    grind

theorem Keeping.inBlock (b : Nat) : Keeping (inBlock b) := by
  intro m h
  unfold VMem.inBlock
  split <;> exact h

theorem Keeping.locate (p : Place) (c : Cell) : Keeping (locate p c) := by
  unfold VMem.locate
  split
  · exact .pure _
  · exact .ub
  · exact .inBlock _
  · exact .ub

theorem Keeping.readPtr (c : Cell) : Keeping (readPtr c) := by
  intro m h
  obtain ⟨o, e⟩ := readPtr_cases c m
  rw [e]
  exact ⟨h.proper, h.blocks, h.objs, h.blt, h.olt⟩

theorem Keeping.copyFrom (P : Prog) (t : Nat) (c : Cell) : Keeping (copyFrom P t c) :=
  .bind (.locate _ _) fun _ => .copyObj _ _ _

theorem Keeping.fCopyConstruct (P : Prog) (t v : Nat) : Keeping (fCopyConstruct P t v) := by
  refine .noexcept ?_
  split
  · exact .bind (.copyVal _ _ _) fun _ => .pure _
  · exact .bind (.allocate _) fun _ => .bind (.copyVal _ _ _) fun _ => .bind (.setBlock _ _) fun _ => .pure _

theorem Keeping.fMoveConstruct (P : Prog) (t v : Nat) : Keeping (fMoveConstruct P t v) := by
  refine .noexcept ?_
  split
  · exact .bind (.moveNew _ _ _) fun _ => .pure _
  · exact .bind (.allocate _) fun _ => .bind (.moveNew _ _ _) fun _ => .bind (.setBlock _ _) fun _ => .pure _

theorem Keeping.fCopy (P : Prog) (g : Mgr) (src dst : Cell) : Keeping (fCopy P g src dst) := by
  cases g with
  | void => exact .pure _
  | ref t => exact .pure _
  | own t =>
    refine .noexcept ?_
    split
    · exact .bind (.copyFrom _ _ _) fun _ => .pure _
    · exact .bind (.allocate _) fun _ => .bind (.copyFrom _ _ _) fun _ => .bind (.setBlock _ _) fun _ => .pure _

theorem Keeping.fMove (P : Prog) (g : Mgr) (src dst : Cell) : Keeping (fMove P g src dst) := by
  cases g with
  | void => exact .pure _
  | ref t => exact .pure _
  | own t =>
    show Keeping (match (P.ty t).place, src with
      | .small, .obj id => VMem.noexcept (P.ty t).nothrowMove do let id' ← VMem.moveObj P t id; Pure.pure (Cell.obj id, Cell.obj id')
      | .small, _ => M.ub
      | _, src => do VMem.readPtr src; VMem.readPtr dst; Pure.pure (dst, src))
    split
    · exact .noexcept (.bind (.moveObj _ _ _) fun _ => .pure _)
    · exact .ub
    · exact .bind (.readPtr _) fun _ => .bind (.readPtr _) fun _ => .pure _

theorem Keeping.fDestroy (P : Prog) (g : Mgr) (c : Cell) : Keeping (fDestroy P g c) := by
  cases g with
  | void => exact .pure _
  | ref t => exact .pure _
  | own t =>
    show Keeping (match (P.ty t).place, c with
      | .small, .obj id => VMem.destroyObj t id
      | .small, _ => M.ub
      | p, .block b => do let id ← VMem.locate p (.block b); VMem.destroyObj t id; VMem.deallocate b
      | _, _ => M.ub)
    split
    · exact .destroyObj _ _
    · exact .ub
    · exact .bind (.locate _ _) fun _ => .bind (.destroyObj _ _) fun _ => .deallocate _
    · exact .ub

theorem Keeping.swap (P : Prog) (x y : Var) : Keeping (swap P x y) := by
  refine .noexcept ?_
  split
  · split
    · exact .pure _
    · exact .bind (.fMove _ _ _ _) fun _ => .pure _
  · split
    · exact .bind (.fMove _ _ _ _) fun _ => .pure _
    · exact .bind (.fMove _ _ _ _) fun _ => .bind (.fMove _ _ _ _) fun _ => .bind (.fMove _ _ _ _) fun _ => .pure _

theorem Keeping.swapSelf (P : Prog) (x : Var) : Keeping (swapSelf P x) := by
  refine .noexcept ?_
  split
  · exact .pure _
  · exact .pure _
  · split
    · split
      · exact .bind (.moveObj _ _ _) fun _ => .bind (.moveObj _ _ _) fun _ => .pure _
      · exact .ub
    · exact .ub
    · exact .bind (.readPtr _) fun _ => .pure _

theorem Keeping.clear (P : Prog) (x : Var) : Keeping (clear P x) := .bind (.fDestroy _ _ _) fun _ => .pure _
theorem Keeping.copyOf (P : Prog) (x : Var) : Keeping (copyOf P x) := .bind (.fCopy _ _ _ _) fun _ => .pure _

/-- the same for steps -/
def KeepingS (f : Step) : Prop := ∀ s, LogInv s.mem → LogInv (f s).2.mem

theorem KeepingS.lift {A : Type} {f : M A} {k : A → State → State} (hf : Keeping f) (hk : ∀ a s, (k a s).mem = s.mem) :
    KeepingS (lift f k) := by
  intro s h
  have := hf s.mem h
  unfold VMem.lift
  split
  · rename_i e; rw [e] at this; rw [hk]; exact this
  all_goals rename_i e; rw [e] at this; exact this

theorem KeepingS.seq {f g : Step} (hf : KeepingS f) (hg : KeepingS g) : KeepingS (seq f g) := by
  intro s h
  have := hf s h
  unfold VMem.seq
  split
  · rename_i e; rw [e] at this; exact hg _ this
  · exact this

theorem KeepingS.newCopy (P : Prog) (k l : Option Nat) : KeepingS (newCopy P k l) := by
  intro s h
  unfold VMem.newCopy
  split
  · exact h
  · refine KeepingS.lift (.copyOf _ _) ?_ s h; intros; rfl

theorem KeepingS.doSwap (P : Prog) (k l : Option Nat) : KeepingS (doSwap P k l) := by
  intro s h
  unfold VMem.doSwap
  split
  · split
    · refine KeepingS.lift (.swapSelf _ _) ?_ s h; intros; rfl
    · refine KeepingS.lift (.swap _ _ _) ?_ s h; intros; rfl
  · exact h

theorem KeepingS.doDestroy (P : Prog) (k : Option Nat) : KeepingS (doDestroy P k) := by
  intro s h
  unfold VMem.doDestroy
  split
  · exact h
  · refine KeepingS.lift (.clear _ _) ?_ s h; intros; rfl

theorem KeepingS.doClear (P : Prog) (k : Option Nat) : KeepingS (doClear P k) := by
  intro s h
  unfold VMem.doClear
  split
  · exact h
  · refine KeepingS.lift (.clear _ _) ?_ s h; intros; rfl

theorem KeepingS.newEmpty (k : Option Nat) : KeepingS (newEmpty k) := fun _ h => h
theorem KeepingS.newRef (k : Option Nat) (t a : Nat) : KeepingS (newRef k t a) := fun _ h => h
theorem KeepingS.newMove (P : Prog) (k l : Option Nat) : KeepingS (newMove P k l) := .seq (.newEmpty k) (.doSwap P k l)

theorem KeepingS.newValue (P : Prog) (k : Option Nat) (t v : Nat) (r : Bool) : KeepingS (newValue P k t v r) := by
  intro s h
  unfold VMem.newValue
  split
  · refine KeepingS.lift ?_ ?_ s h
    case refine_2 => intros; rfl
    split
    · exact .fMoveConstruct _ _ _
    · exact .fCopyConstruct _ _ _
  · exact h

theorem KeepingS.viaTemp (P : Prog) {mk : Step} (h : KeepingS mk) (x : Nat) : KeepingS (viaTemp P mk x) :=
  .seq h (.seq (.doSwap _ _ _) (.doDestroy _ _))

theorem KeepingS.exec (P : Prog) (c : Cmd) : KeepingS (exec P c) := by
  intro s h
  cases c <;> simp only [VMem.exec] <;> (try split) <;> try exact h
  · exact KeepingS.newValue _ _ _ _ _ s h
  · exact KeepingS.newCopy _ _ _ s h
  · exact KeepingS.newMove _ _ _ s h
  · exact KeepingS.viaTemp P (.newCopy _ _ _) _ s h
  · exact KeepingS.viaTemp P (.newMove _ _ _) _ s h
  · exact KeepingS.viaTemp P (.newValue _ _ _ _ _) _ s h
  · exact KeepingS.viaTemp P (.newRef _ _ _) _ s h
  · exact KeepingS.doSwap _ _ _ s h
  · exact KeepingS.doClear _ _ s h
  · exact KeepingS.doDestroy _ _ s h

theorem LogInv.init : LogInv init.mem := by
  constructor <;> simp [VMem.init, Proper, InUse, Alive]

theorem LogInv.run (P : Prog) (cs : List Cmd) {s : State} (h : LogInv s.mem) : LogInv (run P cs s).2.mem := by
  induction cs generalizing s with
  | nil => exact h
  | cons c cs ih =>
    have := KeepingS.exec P c s h
    unfold VMem.run
    split
    · rename_i e; rw [e] at this; exact ih this
    · rename_i e; rw [e] at this; exact ih this
    · exact this

end Rtti.VMem
