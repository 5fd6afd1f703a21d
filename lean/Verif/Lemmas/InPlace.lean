import Verif.Spec.InPlace
import Verif.Lemmas.CallMem
import Verif.Lemmas.VariantExact
/-! Variants converted in place. Objects that nothing refers to do not matter to the rest of memory. -/
set_option autoImplicit false
namespace Rtti.InPlace
open VMem CallMem

/-- memory with more objects, which no variant keeps -/
def plus (m : Mem) (g : Nat → Option Obj) : Mem :=
  { m with objs := fun id => match m.objs id with | some o => some o | none => g id }

/-- the additional objects are others -/
def Apart (g : Nat → Option Obj) (m : Mem) : Prop := ∀ id o, g id = some o → m.objs id = none ∧ id < m.nextObj

def Frame {A : Type} (f : M A) : Prop :=
  ∀ g m, Apart g m → (f m).1 ≠ .ub → f (plus m g) = ((f m).1, plus (f m).2 g) ∧ Apart g (f m).2

theorem Frame.pure {A : Type} (a : A) : Frame (Pure.pure a : M A) := fun _ _ h _ => ⟨rfl, h⟩
theorem Frame.ub {A : Type} : Frame (M.ub : M A) := fun _ _ _ n => absurd rfl n

theorem Frame.bind {A B : Type} {f : M A} {k : A → M B} (hf : Frame f) (hk : ∀ a, Frame (k a)) : Frame (f >>= k) := by
  intro g m h n
  have e : ∀ m, (f >>= k) m = M.bind f k m := fun _ => rfl
  rw [e] at n; rw [e, e]
  unfold M.bind at n ⊢
  have hf := hf g m h
  rcases ef : f m with ⟨o, m'⟩
  rw [ef] at hf n
  cases o with
  | ok a =>
    obtain ⟨h1, h2⟩ := hf (by simp)
    rw [h1]
    exact hk a g m' h2 n
  | threw => obtain ⟨h1, h2⟩ := hf (by simp); rw [h1]; exact ⟨rfl, h2⟩
  | terminated => obtain ⟨h1, h2⟩ := hf (by simp); rw [h1]; exact ⟨rfl, h2⟩
  | ub => simp at n

theorem Frame.noexcept {A : Type} {c : Bool} {f : M A} (hf : Frame f) : Frame (noexcept c f) := by
  intro g m h n
  unfold VMem.noexcept at n ⊢
  have hf := hf g m h
  rcases ef : f m with ⟨o, m'⟩
  rw [ef] at hf n
  cases o with
  | ok a => obtain ⟨h1, h2⟩ := hf (by simp); rw [h1]; exact ⟨rfl, h2⟩
  | threw => obtain ⟨h1, h2⟩ := hf (by simp); rw [h1]; cases c <;> exact ⟨rfl, h2⟩
  | terminated => obtain ⟨h1, h2⟩ := hf (by simp); rw [h1]; exact ⟨rfl, h2⟩
  | ub => simp at n

theorem Frame.allocate (P : Prog) : Frame (allocate P) := by
  intro g m h _
  unfold VMem.allocate
  cases e : P.oom m.nextBlock <;> simp only [plus, e, if_true, if_false, Bool.false_eq_true] <;> exact ⟨trivial, h⟩

theorem Frame.deallocate (b : Nat) : Frame (deallocate b) := by
  intro g m h n
  unfold VMem.deallocate at n ⊢
  cases e : m.blocks b <;> simp only [plus, e] at n ⊢
  · simp at n
  · exact ⟨trivial, h⟩

theorem Frame.setBlock (b id : Nat) : Frame (setBlock b id) := by
  intro g m h n
  unfold VMem.setBlock at n ⊢
  cases e : m.blocks b <;> simp only [plus, e] at n ⊢
  · simp at n
  · exact ⟨trivial, h⟩

theorem Frame.inBlock (b : Nat) : Frame (inBlock b) := by
  intro g m h n
  unfold VMem.inBlock at n ⊢
  rcases e : m.blocks b with _ | _ | id <;> simp only [plus, e] at n ⊢
  · simp at n
  · simp at n
  · exact ⟨trivial, h⟩

theorem plus_upd {m : Mem} {g : Nat → Option Obj} {id : Nat} {o : Obj} :
    upd (plus m g).objs id (some o) = (plus { m with objs := upd m.objs id (some o) } g).objs := by
  funext i
  simp only [plus, upd]
  split <;> rfl

theorem Frame.born (t v : Nat) : Frame (born t v) := by
  intro g m h _
  unfold VMem.born
  refine ⟨?_, fun id o e => ?_⟩
  · rw [plus_upd]; rfl
  · have := h id o e
    have : id ≠ m.nextObj := by omega
    simp only [upd, this, if_false]
    exact ⟨(h id o e).1, by have := (h id o e).2; omega⟩

theorem Apart.none {g : Nat → Option Obj} {m : Mem} (h : Apart g m) {id : Nat} {o : Obj} (e : m.objs id = some o) : g id = none := by
  cases e' : g id with
  | none => rfl
  | some o' => rw [(h id o' e').1] at e; cases e

theorem plus_some {g : Nat → Option Obj} {m : Mem} {id : Nat} {o : Obj} (e : m.objs id = some o) : (plus m g).objs id = some o := by
  simp [plus, e]

theorem Frame.destroyObj (t id : Nat) : Frame (destroyObj t id) := by
  intro g m h n
  unfold VMem.destroyObj at n ⊢
  cases e : m.objs id with
  | none => simp [e] at n
  | some o =>
    rw [e] at n
    rw [plus_some e]
    by_cases ht : o.type = t
    · simp only [ht, if_true]
      refine ⟨?_, fun i o' e' => ?_⟩
      · have hn := h.none e
        simp only [plus, upd, Prod.mk.injEq, Mem.mk.injEq, true_and, and_true]
        funext i
        by_cases hi : i = id
        · subst hi; simp [upd, hn]
        · simp [upd, hi]
      · have := h i o' e'
        refine ⟨?_, this.2⟩
        simp only [upd]
        split
        · rfl
        · exact this.1
    · simp [ht] at n

theorem Frame.copyVal (P : Prog) (t v : Nat) : Frame (copyVal P t v) := by
  intro g m h n
  unfold VMem.copyVal at n ⊢
  by_cases hc : (P.ty t).copyable = false
  · simp only [hc, if_true]; exact ⟨trivial, h⟩
  · simp only [hc, if_false] at n ⊢
    by_cases ha : (P.ty t).place = .array ∧ (P.ty t).trivial = false
    · simp [ha] at n
    · simp only [ha, if_false] at n ⊢
      cases e : (P.ty t).copy v with
      | none => exact ⟨rfl, h⟩
      | some v' => exact Frame.born t v' g m h (by simp [VMem.born])

theorem Frame.copyObj (P : Prog) (t id : Nat) : Frame (copyObj P t id) := by
  intro g m h n
  unfold VMem.copyObj at n ⊢
  cases e : m.objs id with
  | none => simp [e] at n
  | some o =>
    rw [e] at n
    rw [plus_some e]
    by_cases ht : o.type = t
    · simp only [ht, if_true] at n ⊢; exact Frame.copyVal P t _ g m h n
    · simp [ht] at n

theorem Frame.moveVal (P : Prog) (t v : Nat) : Frame (moveVal P t v) := by
  intro g m h n
  unfold VMem.moveVal at n ⊢
  by_cases hm : (P.ty t).movable = true
  · simp only [hm, if_true] at n ⊢
    by_cases ha : (P.ty t).place = .array ∧ (P.ty t).trivial = false
    · simp [ha] at n
    · simp only [ha, if_false] at n ⊢
      cases e : (P.ty t).move v with
      | none => exact ⟨rfl, h⟩
      | some p =>
        have := Frame.born t p.1 g m h (by simp [VMem.born])
        dsimp only
        rw [this.1]
        exact ⟨rfl, this.2⟩
  · simp only [hm] at n ⊢
    have := Frame.copyVal P t v g m h
    rcases ec : VMem.copyVal P t v m with ⟨o, m'⟩
    rw [ec] at this n
    cases o with
    | ok a => obtain ⟨h1, h2⟩ := this (by simp); rw [h1]; exact ⟨rfl, h2⟩
    | threw => obtain ⟨h1, h2⟩ := this (by simp); rw [h1]; exact ⟨rfl, h2⟩
    | terminated => obtain ⟨h1, h2⟩ := this (by simp); rw [h1]; exact ⟨rfl, h2⟩
    | ub => simp at n

theorem moveVal_keeps (P : Prog) (t v : Nat) (m : Mem) (id : Nat) (h : id < m.nextObj) : (moveVal P t v m).2.objs id = m.objs id := by
  obtain ⟨r, e⟩ := moveVal_is P t v m
  rw [e]
  have : id ≠ m.nextObj := by omega
  cases moved P t v <;> simp [give, Mem.born, upd, this]

theorem Frame.moveObj (P : Prog) (t id : Nat) : Frame (moveObj P t id) := by
  intro g m h n
  unfold VMem.moveObj at n ⊢
  cases e : m.objs id with
  | none => simp [e] at n
  | some o =>
    rw [e] at n
    rw [plus_some e]
    by_cases ht : o.type = t
    · simp only [ht, if_true] at n ⊢
      have := Frame.moveVal P t o.val g m h
      rcases ec : VMem.moveVal P t o.val m with ⟨q, m'⟩
      rw [ec] at this n
      cases q with
      | ok a =>
        obtain ⟨h1, h2⟩ := this (by simp)
        rw [h1]
        dsimp only
        refine ⟨?_, fun i o' e' => ?_⟩
        · rw [plus_upd]; rfl
        · have hi : i ≠ id := by intro hi; subst hi; rw [h.none e] at e'; cases e'
          simp only [upd, hi, if_false]
          exact h2 i o' e'
      | threw => obtain ⟨h1, h2⟩ := this (by simp); rw [h1]; exact ⟨rfl, h2⟩
      | terminated => obtain ⟨h1, h2⟩ := this (by simp); rw [h1]; exact ⟨rfl, h2⟩
      | ub => simp at n
    · simp [ht] at n

theorem Frame.readPtr (c : Cell) : Frame (readPtr c) := by
  intro g m h _
  cases c <;> exact ⟨rfl, h⟩

theorem Frame.locate (p : Place) (c : Cell) : Frame (locate p c) := by
  cases p <;> cases c <;> first | exact .pure _ | exact .ub | exact .inBlock _

theorem Frame.copyFrom (P : Prog) (t : Nat) (c : Cell) : Frame (copyFrom P t c) := .bind (.locate _ _) fun _ => .copyObj _ _ _

theorem Frame.moveNew (P : Prog) (t v : Nat) : Frame (moveNew P t v) := .bind (.moveVal _ _ _) fun _ => .pure _

theorem Frame.fCopyConstruct (P : Prog) (t v : Nat) : Frame (fCopyConstruct P t v) := by
  unfold VMem.fCopyConstruct
  refine .noexcept ?_
  cases (P.ty t).place
  · exact .bind (.copyVal _ _ _) fun _ => .pure _
  all_goals exact .bind (.allocate _) fun _ => .bind (.copyVal _ _ _) fun _ => .bind (.setBlock _ _) fun _ => .pure _

theorem Frame.fMoveConstruct (P : Prog) (t v : Nat) : Frame (fMoveConstruct P t v) := by
  unfold VMem.fMoveConstruct
  refine .noexcept ?_
  cases (P.ty t).place
  · exact .bind (.moveNew _ _ _) fun _ => .pure _
  all_goals exact .bind (.allocate _) fun _ => .bind (.moveNew _ _ _) fun _ => .bind (.setBlock _ _) fun _ => .pure _

theorem Frame.fCopy (P : Prog) (g : Mgr) (src dst : Cell) : Frame (fCopy P g src dst) := by
  cases g with
  | void => exact .pure _
  | ref t => exact .pure _
  | own t =>
    unfold VMem.fCopy
    refine .noexcept ?_
    cases (P.ty t).place
    · exact .bind (.copyFrom _ _ _) fun _ => .pure _
    all_goals exact .bind (.allocate _) fun _ => .bind (.copyFrom _ _ _) fun _ => .bind (.setBlock _ _) fun _ => .pure _

theorem Frame.fMove (P : Prog) (g : Mgr) (src dst : Cell) : Frame (fMove P g src dst) := by
  cases g with
  | void => exact .pure _
  | ref t => exact .pure _
  | own t =>
    unfold VMem.fMove
    dsimp only
    split <;>
      first
      | exact .ub
      | exact .noexcept (.bind (.moveObj _ _ _) fun _ => .pure _)
      | exact .bind (.readPtr _) fun _ => .bind (.readPtr _) fun _ => .pure _

theorem Frame.fDestroy (P : Prog) (g : Mgr) (c : Cell) : Frame (fDestroy P g c) := by
  cases g with
  | void => exact .pure _
  | ref t => exact .pure _
  | own t =>
    unfold VMem.fDestroy
    dsimp only
    split <;>
      first
      | exact .ub
      | exact .destroyObj _ _
      | exact .bind (.locate _ _) fun _ => .bind (.destroyObj _ _) fun _ => .deallocate _

theorem Frame.swap (P : Prog) (x y : Var) : Frame (VMem.swap P x y) := by
  unfold VMem.swap
  refine .noexcept ?_
  split
  · split
    · exact .pure _
    · exact .bind (.fMove _ _ _ _) fun _ => .pure _
  · split
    · exact .bind (.fMove _ _ _ _) fun _ => .pure _
    · exact .bind (.fMove _ _ _ _) fun _ => .bind (.fMove _ _ _ _) fun _ => .bind (.fMove _ _ _ _) fun _ => .pure _

theorem Frame.swapSelf (P : Prog) (x : Var) : Frame (swapSelf P x) := by
  unfold VMem.swapSelf
  refine .noexcept ?_
  split
  · exact .pure _
  · exact .pure _
  · split
    · split
      · exact .bind (.moveObj _ _ _) fun _ => .bind (.moveObj _ _ _) fun _ => .pure _
      · exact .ub
    · exact .ub
    · exact .bind (.readPtr _) fun _ => .pure _

theorem Frame.clear (P : Prog) (x : Var) : Frame (clear P x) := .bind (.fDestroy _ _ _) fun _ => .pure _
theorem Frame.copyOf (P : Prog) (x : Var) : Frame (copyOf P x) := .bind (.fCopy _ _ _ _) fun _ => .pure _

/-- a state with more objects -/
def plusS (s : State) (g : Nat → Option Obj) : State := ⟨s.env, plus s.mem g⟩

def FrameS (f : Step) : Prop :=
  ∀ g s, Apart g s.mem → (f s).1 ≠ .ub → f (plusS s g) = ((f s).1, plusS (f s).2 g) ∧ Apart g (f s).2.mem

theorem FrameS.nop : FrameS fun s => (.ok (), s) := fun _ _ h _ => ⟨rfl, h⟩

theorem FrameS.lift {A : Type} {f : M A} (hf : Frame f) (k : A → (Option Nat → Option Var) → Option Nat → Option Var) :
    FrameS (lift f fun a s => ⟨k a s.env, s.mem⟩) := by
  intro g s h n
  unfold VMem.lift at n ⊢
  have hf := hf g s.mem h
  rcases ef : f s.mem with ⟨o, m'⟩
  rw [ef] at hf n
  cases o with
  | ok a => obtain ⟨h1, h2⟩ := hf (by simp); simp only [plusS, h1]; exact ⟨trivial, h2⟩
  | threw => obtain ⟨h1, h2⟩ := hf (by simp); simp only [plusS, h1]; exact ⟨trivial, h2⟩
  | terminated => obtain ⟨h1, h2⟩ := hf (by simp); simp only [plusS, h1]; exact ⟨trivial, h2⟩
  | ub => simp at n

theorem FrameS.seq {f f' : Step} (hf : FrameS f) (hf' : FrameS f') : FrameS (seq f f') := by
  intro g s h n
  unfold VMem.seq at n ⊢
  have hf := hf g s h
  rcases ef : f s with ⟨o, s'⟩
  rw [ef] at hf n
  cases o with
  | ok a =>
    obtain ⟨h1, h2⟩ := hf (by simp)
    rw [h1]
    exact hf' g s' h2 n
  | threw => obtain ⟨h1, h2⟩ := hf (by simp); rw [h1]; exact ⟨rfl, h2⟩
  | terminated => obtain ⟨h1, h2⟩ := hf (by simp); rw [h1]; exact ⟨rfl, h2⟩
  | ub => simp at n

theorem FrameS.newCopy (P : Prog) (k l : Option Nat) : FrameS (newCopy P k l) := by
  intro g s h n
  unfold VMem.newCopy at n ⊢
  have e : (plusS s g).env l = s.env l := rfl
  rw [e]
  revert n
  cases s.env l with
  | none => exact FrameS.nop g s h
  | some y => exact FrameS.lift (.copyOf P y) (fun v env => upd env k (some v)) g s h

theorem FrameS.doSwap (P : Prog) (k l : Option Nat) : FrameS (doSwap P k l) := by
  intro g s h n
  unfold VMem.doSwap at n ⊢
  have e : (plusS s g).env = s.env := rfl
  rw [e]
  cases ek : s.env k with
  | none => exact FrameS.nop g s h (by simp)
  | some x =>
    cases el : s.env l with
    | none => exact FrameS.nop g s h (by simp)
    | some y =>
      simp only [ek, el] at n ⊢
      by_cases hkl : k = l
      · simp only [hkl, if_true] at n ⊢; exact FrameS.lift (.swapSelf P x) (fun v env => upd env l (some v)) g s h n
      · simp only [hkl, if_false] at n ⊢
        exact FrameS.lift (.swap P x y) (fun v env => upd (upd env k (some v.1)) l (some v.2)) g s h n

theorem FrameS.doDestroy (P : Prog) (k : Option Nat) : FrameS (doDestroy P k) := by
  intro g s h n
  unfold VMem.doDestroy at n ⊢
  have e : (plusS s g).env k = s.env k := rfl
  rw [e]
  revert n
  cases s.env k with
  | none => exact FrameS.nop g s h
  | some x => exact FrameS.lift (.clear P x) (fun _ env => upd env k none) g s h

theorem FrameS.doClear (P : Prog) (k : Option Nat) : FrameS (doClear P k) := by
  intro g s h n
  unfold VMem.doClear at n ⊢
  have e : (plusS s g).env k = s.env k := rfl
  rw [e]
  revert n
  cases s.env k with
  | none => exact FrameS.nop g s h
  | some x => exact FrameS.lift (.clear P x) (fun v env => upd env k (some v)) g s h

theorem FrameS.newEmpty (k : Option Nat) : FrameS (newEmpty k) := fun _ _ h _ => ⟨rfl, h⟩
theorem FrameS.newRef (k : Option Nat) (t a : Nat) : FrameS (newRef k t a) := fun _ _ h _ => ⟨rfl, h⟩
theorem FrameS.newMove (P : Prog) (k l : Option Nat) : FrameS (newMove P k l) := .seq (.newEmpty k) (.doSwap P k l)

theorem FrameS.newValue (P : Prog) (k : Option Nat) (t v : Nat) (r : Bool) : FrameS (newValue P k t v r) := by
  intro g s h n
  unfold VMem.newValue at n ⊢
  split
  · rename_i hc
    simp only [hc, if_true] at n
    refine FrameS.lift (f := if r then fMoveConstruct P t v else fCopyConstruct P t v) ?_ (fun c env => upd env k (some ⟨.own t, c⟩)) g s h n
    split
    · exact .fMoveConstruct _ _ _
    · exact .fCopyConstruct _ _ _
  · exact FrameS.nop g s h (by simp)

theorem FrameS.viaTemp (P : Prog) {mk : Step} (h : FrameS mk) (x : Nat) : FrameS (viaTemp P mk x) :=
  .seq h (.seq (.doSwap _ _ _) (.doDestroy _ _))

theorem FrameS.ite {f f' : Step} (c : State → Bool) (hc : ∀ g s, c (plusS s g) = c s) (hf : FrameS f) (hf' : FrameS f') :
    FrameS fun s => if c s then f s else f' s := by
  intro g s h n
  dsimp only at n ⊢
  rw [hc]
  cases e : c s
  · simp only [e] at n; exact hf' g s h n
  · simp only [e] at n; exact hf g s h n

theorem FrameS.exec (P : Prog) (c : Cmd) : FrameS (exec P c) := by
  cases c with
  | empty x => exact .ite (fun s => isLive s x) (fun _ _ => rfl) .nop (.newEmpty _)
  | value x t v r => exact .ite (fun s => isLive s x) (fun _ _ => rfl) .nop (.newValue _ _ _ _ _)
  | ref x t a => exact .ite (fun s => isLive s x) (fun _ _ => rfl) .nop (.newRef _ _ _)
  | copy x y => exact .ite (fun s => isLive s x || !isLive s y) (fun _ _ => rfl) .nop (.newCopy _ _ _)
  | move x y => exact .ite (fun s => isLive s x || !isLive s y) (fun _ _ => rfl) .nop (.newMove _ _ _)
  | assign x y =>
    exact .ite (fun s => !isLive s x || !isLive s y || decide (x = y)) (fun _ _ => rfl) .nop (.viaTemp P (.newCopy _ _ _) x)
  | assignMove x y =>
    exact .ite (fun s => !isLive s x || !isLive s y || decide (x = y)) (fun _ _ => rfl) .nop (.viaTemp P (.newMove _ _ _) x)
  | assignValue x t v r =>
    exact .ite (fun s => !isLive s x || !((P.ty t).copyable || (r && (P.ty t).movable))) (fun _ _ => rfl) .nop (.viaTemp P (.newValue _ _ _ _ _) x)
  | assignRef x t a => exact .ite (fun s => !isLive s x) (fun _ _ => rfl) .nop (.viaTemp P (.newRef _ _ _) x)
  | swap x y => exact .doSwap _ _ _
  | clear x => exact .doClear _ _
  | destroy x => exact .doDestroy _ _

/-! ### Before the assignment -/

/-- objects have numbers that were given out -/
def Below (m : Mem) : Prop := ∀ id o, m.objs id = some o → id < m.nextObj

/-- a call that does nothing to blocks -/
def Tidy {A : Type} (f : M A) : Prop :=
  ∀ m, Below m → (f m).2.blocks = m.blocks ∧ (f m).2.nextBlock = m.nextBlock ∧ Below (f m).2

theorem Tidy.pure {A : Type} (a : A) : Tidy (Pure.pure a : M A) := fun _ h => ⟨rfl, rfl, h⟩
theorem Tidy.threw {A : Type} : Tidy (M.threw : M A) := fun _ h => ⟨rfl, rfl, h⟩

theorem Tidy.bind {A B : Type} {f : M A} {k : A → M B} (hf : Tidy f) (hk : ∀ a, Tidy (k a)) : Tidy (f >>= k) := by
  intro m h
  have e : (f >>= k) m = M.bind f k m := rfl
  rw [e]
  have hf := hf m h
  unfold M.bind
  rcases ef : f m with ⟨o, m'⟩
  rw [ef] at hf
  cases o with
  | ok a =>
    have := hk a m' hf.2.2
    exact ⟨this.1.trans hf.1, this.2.1.trans hf.2.1, this.2.2⟩
  | _ => exact hf

theorem Tidy.noexcept {A : Type} {c : Bool} {f : M A} (hf : Tidy f) : Tidy (noexcept c f) := by
  intro m h
  have hf := hf m h
  unfold VMem.noexcept
  rcases ef : f m with ⟨o, m'⟩
  rw [ef] at hf
  cases o with
  | threw => cases c <;> exact hf
  | _ => exact hf

theorem Tidy.finallyM {A : Type} {f : M A} {g : M Unit} (hf : Tidy f) (hg : Tidy g) : Tidy (finallyM f g) := by
  intro m h
  have hf := hf m h
  unfold CallMem.finallyM
  rcases ef : f m with ⟨o, m'⟩
  rw [ef] at hf
  have hg := hg m' hf.2.2
  have e : (g m').2.blocks = m.blocks ∧ (g m').2.nextBlock = m.nextBlock ∧ Below (g m').2 := ⟨hg.1.trans hf.1, hg.2.1.trans hf.2.1, hg.2.2⟩
  rcases eg : g m' with ⟨q, m''⟩
  rw [eg] at e
  cases o with
  | ok a => cases q <;> simp only [eg] <;> exact e
  | threw => cases q <;> simp only [eg] <;> exact e
  | _ => exact hf

theorem Tidy.born (t v : Nat) : Tidy (born t v) := by
  intro m h
  refine ⟨rfl, rfl, fun id o e => ?_⟩
  simp only [VMem.born, upd] at e ⊢
  split at e
  · omega
  · have := h id o e; omega

theorem Tidy.copyVal (P : Prog) (t v : Nat) : Tidy (copyVal P t v) := by
  intro m h
  unfold VMem.copyVal
  split
  · exact ⟨rfl, rfl, h⟩
  · split
    · exact ⟨rfl, rfl, h⟩
    · split
      · exact ⟨rfl, rfl, h⟩
      · exact Tidy.born t _ m h

theorem Tidy.moveVal (P : Prog) (t v : Nat) : Tidy (moveVal P t v) := by
  intro m h
  obtain ⟨r, e⟩ := moveVal_is P t v m
  rw [e]
  cases moved P t v with
  | ok v' => exact Tidy.born t v' m h
  | _ => exact ⟨rfl, rfl, h⟩

theorem Tidy.destroyObj (t id : Nat) : Tidy (destroyObj t id) := by
  intro m h
  unfold VMem.destroyObj
  split
  · exact ⟨rfl, rfl, h⟩
  · split
    · refine ⟨rfl, rfl, fun i o e => ?_⟩
      simp only [upd] at e
      split at e
      · cases e
      · exact h i o e
    · exact ⟨rfl, rfl, h⟩

theorem Tidy.moveObj (P : Prog) (t id : Nat) : Tidy (moveObj P t id) := by
  intro m h
  unfold VMem.moveObj
  split
  · exact ⟨rfl, rfl, h⟩
  · rename_i o eo
    have := Tidy.moveVal P t o.val m h
    have hn : m.nextObj ≤ (VMem.moveVal P t o.val m).2.nextObj := by
      obtain ⟨r, e⟩ := moveVal_is P t o.val m
      rw [e]
      cases moved P t o.val <;> simp [give, Mem.born]
    split
    · rcases ev : VMem.moveVal P t o.val m with ⟨q, m'⟩
      rw [ev] at this hn
      cases q with
      | ok a =>
        refine ⟨this.1, this.2.1, fun i o' e => ?_⟩
        simp only [upd] at e
        split at e
        · rename_i hi; subst hi; exact Nat.lt_of_lt_of_le (h _ _ eo) hn
        · exact this.2.2 i o' e
      | _ => exact this
    · exact ⟨rfl, rfl, h⟩

theorem Tidy.to (P : Prog) (t : Nat) (src : Src) : Tidy (to P t src) := by
  refine .bind ?_ fun _ => .finallyM (.noexcept (.moveObj _ _ _)) (.destroyObj _ _)
  cases src with
  | copy v => exact .noexcept (.copyVal _ _ _)
  | made v a => exact .bind (.born _ _) fun _ => by cases a <;> first | exact .threw | exact .pure _
  | fails => exact .threw

theorem ctors_all (l : List Ev) : ctors (fun _ => true) l = made l := by
  induction l with
  | nil => rfl
  | cons e l ih => cases e <;> simp [ctors, made, ih]

theorem dtors_all (l : List Ev) : dtors (fun _ => true) l = ended l := by
  induction l with
  | nil => rfl
  | cons e l ih => cases e <;> simp [dtors, ended, ih]

/-! ### A state is a good one with objects nothing refers to -/

structure Sim (P : Prog) (s0 : State) (g : Nat → Option Obj) (s : State) : Prop where
  is : s = plusS s0 g
  apart : Apart g s0.mem
  good : Good P s0
  noTemp : s0.env none = none

theorem content_plus {m : Mem} {g : Nat → Option Obj} {x : Var} {c : Content} (h : content m x = some c) : content (plus m g) x = some c := by
  obtain ⟨mgr, cell⟩ := x
  cases mgr <;> cases cell <;> simp only [content] at h ⊢ <;> try exact h
  · rename_i id
    cases e : m.objs id with
    | none => rw [e] at h; cases h
    | some o => rw [e] at h; rw [plus_some e]; exact h
  · rename_i b
    have : (plus m g).blocks b = m.blocks b := rfl
    rw [this]
    rcases eb : m.blocks b with _ | _ | id
    · rw [eb] at h; cases h
    · rw [eb] at h; cases h
    · rw [eb] at h
      dsimp only at h ⊢
      cases e : m.objs id with
      | none => rw [e] at h; cases h
      | some o => rw [e] at h; rw [plus_some e]; exact h

theorem view_plus {P : Prog} {s : State} (gd : Good P s) (g : Nat → Option Obj) : view (plusS s g) = view s := by
  funext x
  have hl := gd.live (some x)
  rw [see_some] at hl
  unfold view at hl ⊢
  have e : (plusS s g).env = s.env := rfl
  rw [e]
  cases ex : s.env (some x) with
  | none => rfl
  | some v =>
    rw [ex] at hl
    simp only [Option.bind_some] at hl ⊢
    obtain ⟨c, hc⟩ := Option.isSome_iff_exists.1 hl
    rw [hc]
    exact content_plus hc

theorem Sim.view {P : Prog} {s0 s : State} {g : Nat → Option Obj} (h : Sim P s0 g s) : VMem.view s = VMem.view s0 := by
  rw [h.is]; exact view_plus h.good g

theorem Sim.abs {P : Prog} {s0 s : State} {g : Nat → Option Obj} (h : Sim P s0 g s) : VMem.abs s = VMem.abs s0 := by
  unfold VMem.abs
  rw [h.view]
  rw [h.is]; rfl

/-- how a step ends: as the machine without memory says; so many objects more are left -/
def Ends (P : Prog) (s : State) (N : Nat) (k : Nat) (a : Out Unit × Abs) (r : Out Unit × State) : Prop :=
  (∃ s' s0' g', r = (.ok (), s') ∧ Sim P s0' g' s' ∧ a = (.ok (), VMem.abs s') ∧
    made s'.mem.log + ended s.mem.log + objects (VMem.view s) N = made s.mem.log + ended s'.mem.log + objects (VMem.view s') N + k) ∨
  (∃ s' s0' g', r = (.threw, s') ∧ Sim P s0' g' s' ∧ a = (.threw, VMem.abs s') ∧ VMem.view s' = VMem.view s ∧
    made s'.mem.log + ended s.mem.log = made s.mem.log + ended s'.mem.log + k) ∨
  (∃ s', r = (.terminated, s') ∧ a.1 = .terminated) ∨
  a.1 = .ub

theorem plus_log {s : State} {g : Nat → Option Obj} : (plusS s g).mem.log = s.mem.log := rfl

theorem exec_ends {P : Prog} {s0 s : State} {g : Nat → Option Obj} (h : Sim P s0 g s) (c : Cmd) {N : Nat} (hN : ∀ x ∈ c.names, x < N) :
    Ends P s N (match (meant P c (VMem.abs s)).1 with | .ok _ => moves P (VMem.view s) c | _ => 0) (meant P c (VMem.abs s)) (exec P c s) := by
  have hf := FrameS.exec P c g s0 h.apart
  have ev := h.view
  have el : s.mem.log = s0.mem.log := by rw [h.is]; rfl
  rw [h.abs]
  rcases exec_exact h.good h.noTemp c with ⟨s', e, g', h', ea, hc⟩ | ⟨m', e, ea, hl⟩ | ⟨s', e, ea⟩ | ⟨s', e, ea⟩
  · rw [e] at hf
    obtain ⟨h1, h2⟩ := hf (by simp)
    have hs : Sim P s' g (plusS s' g) := ⟨rfl, h2, g', h'⟩
    refine .inl ⟨plusS s' g, s', g, by rw [h.is, h1], hs, by rw [ea, hs.abs]; rfl, ?_⟩
    have o := meant_objects hN ea
    rw [hs.view, plus_log, ev, el]
    unfold Counts at hc
    have e2 : (VMem.abs s0).σ = VMem.view s0 := rfl
    rw [e2] at o
    rw [ea]
    dsimp only at o ⊢
    omega
  · rw [e] at hf
    obtain ⟨h1, h2⟩ := hf (by simp)
    have hs : Sim P ⟨s0.env, m'⟩ g (plusS ⟨s0.env, m'⟩ g) := ⟨rfl, h2, Inv.lost h.good hl, h.noTemp⟩
    refine .inr (.inl ⟨plusS ⟨s0.env, m'⟩ g, _, g, by rw [h.is, h1], hs, ?_, by rw [hs.view, view_lost h.good hl, ev], ?_⟩)
    · rw [ea, hs.abs]
      unfold VMem.abs
      rw [view_lost h.good hl]
    · have hc := Counts.lost hl
      unfold Counts at hc
      rw [plus_log, el, ea]
      dsimp only
      omega
  · rw [e] at hf
    obtain ⟨h1, -⟩ := hf (by simp)
    exact .inr (.inr (.inl ⟨_, by rw [h.is, h1], ea⟩))
  · exact .inr (.inr (.inr ea))

theorem EndsNop {P : Prog} {s0 s : State} {g : Nat → Option Obj} (h : Sim P s0 g s) (N : Nat) : Ends P s N 0 (.ok (), VMem.abs s) (.ok (), s) :=
  .inl ⟨s, s0, g, rfl, h, rfl, by omega⟩

def heldOf : Content → Held
  | .empty => .nothing
  | .val t v => .object t v
  | .ref t a => .outside t a

theorem source_heldOf (t : Nat) (how : Held → Src) (a : Content) : source t how (heldOf a) = comesFrom t how a := by cases a <;> rfl

theorem look_is {P : Prog} {s0 : State} (gd : Good P s0) (g : Nat → Option Obj) {k : Option Nat} {v : Var} {a : Content} (hk : s0.env k = some v)
    (ha : content s0.mem v = some a) : look P v (plus s0.mem g) = (.ok (heldOf a), plus s0.mem g) := by
  obtain ⟨mgr, c⟩ := v
  cases mgr with
  | void => simp only [content, Option.some.injEq] at ha; subst ha; rfl
  | ref t =>
    obtain ⟨b, rfl⟩ := gd.refs k t c hk
    simp only [content, Option.some.injEq] at ha; subst ha; rfl
  | own t =>
    obtain ⟨id, v, ho, hc, hl⟩ := Inv.located gd hk
    rw [hc] at ha
    cases ha
    have hl := hl (plus s0.mem g) fun _ _ h => h
    have e : look P ⟨.own t, c⟩ (plus s0.mem g) =
        M.bind (locate (P.ty t).place c) (fun id => M.bind (readObj t id) fun v => M.pure (.object t v)) (plus s0.mem g) := rfl
    rw [e]
    simp only [M.bind, hl, readObj, plus_some ho, if_true, M.pure, heldOf]

theorem Inv.more {P : Prog} {env : Option Nat → Option Var} {m m' : Mem} (h : Inv P env m) (ho : m'.objs = m.objs) (hb : m'.blocks = m.blocks)
    (hn : m.nextObj ≤ m'.nextObj) (hm : m'.nextBlock = m.nextBlock) : Inv P env m' := by
  obtain ⟨h1, h2, h3, h4, h5, h6, h7, h8, h9, h10, h11⟩ := h
  constructor <;> (try rw [hb]) <;> (try rw [ho]) <;> try assumption
  · intro id o e; exact Nat.lt_of_lt_of_le (h1 id o e) hn
  · intro b c e; rw [hm]; exact h2 b c e
  · intro b id e; exact Nat.lt_of_lt_of_le (h3 b id e) hn

theorem Sim.below {P : Prog} {s0 s : State} {g : Nat → Option Obj} (h : Sim P s0 g s) : Below s.mem := by
  intro id o e
  rw [h.is] at e ⊢
  simp only [plusS, plus] at e ⊢
  cases e' : s0.mem.objs id with
  | some o' => exact h.good.olt id o' e'
  | none => rw [e'] at e; exact (h.apart id o e).2

/-- memory that changed beyond the objects there were, and not in its blocks -/
theorem Sim.more {P : Prog} {s0 s : State} {g : Nat → Option Obj} (h : Sim P s0 g s) {m1 : Mem} (ho : ∀ id, id < s.mem.nextObj → m1.objs id = s.mem.objs id)
    (hn : s.mem.nextObj ≤ m1.nextObj) (hb : m1.blocks = s.mem.blocks) (hm : m1.nextBlock = s.mem.nextBlock) (hl : Below m1) :
    ∃ s0' g', Sim P s0' g' ⟨s.env, m1⟩ ∧ VMem.view s0' = VMem.view s0 ∧ ∀ id, s.mem.nextObj ≤ id → g' id = m1.objs id := by
  have hN : s.mem.nextObj = s0.mem.nextObj := by rw [h.is]; rfl
  have hB : s.mem.blocks = s0.mem.blocks := by rw [h.is]; rfl
  have hM : s.mem.nextBlock = s0.mem.nextBlock := by rw [h.is]; rfl
  refine ⟨⟨s0.env, { m1 with objs := s0.mem.objs }⟩, fun id => if id < s.mem.nextObj then g id else m1.objs id, ⟨?_, ?_, ?_, h.noTemp⟩, ?_, ?_⟩
  · have he : s.env = s0.env := by rw [h.is]; rfl
    simp only [plusS, plus, he, State.mk.injEq, true_and]
    have : m1.objs = fun id => match s0.mem.objs id with | some o => some o | none => if id < s.mem.nextObj then g id else m1.objs id := by
      funext id
      by_cases hi : id < s.mem.nextObj
      · rw [ho id hi]
        simp only [hi, if_true]
        rw [h.is]; rfl
      · simp only [hi, if_false]
        cases e : s0.mem.objs id with
        | none => rfl
        | some o => have := h.good.olt id o e; omega
    rw [← this]
  · intro id o e
    dsimp only at e ⊢
    split at e
    · have := h.apart id o e; exact ⟨this.1, by omega⟩
    · rename_i hi
      refine ⟨?_, hl id o e⟩
      cases e' : s0.mem.objs id with
      | none => rfl
      | some o => have := h.good.olt id o e'; omega
  · exact Inv.more h.good rfl (hb.trans hB) (by dsimp only; omega) (hm.trans hM)
  · funext x
    unfold VMem.view content
    dsimp only
    rw [hb, hB]
  · intro id hi
    have : ¬id < s.mem.nextObj := by omega
    simp [this]

theorem Sim.dead {P : Prog} {s0 s : State} {g : Nat → Option Obj} (h : Sim P s0 g s) {t v r : Nat} (hr : g r = some ⟨t, v⟩) :
    ∃ s' s0' g', drop t r s = (.ok (), s') ∧ Sim P s0' g' s' ∧ VMem.abs s' = VMem.abs s ∧ made s'.mem.log = made s.mem.log ∧
      ended s'.mem.log = ended s.mem.log + 1 := by
  have hn := (h.apart r _ hr).1
  have ho : s.mem.objs r = some ⟨t, v⟩ := by rw [h.is]; simp [plusS, plus, hn, hr]
  have hs : Sim P ⟨s0.env, { s0.mem with log := .dtor r t :: s0.mem.log }⟩ (upd g r none) ⟨s.env, Mem.dead s.mem t r⟩ := by
    refine ⟨?_, ?_, ?_, h.noTemp⟩
    · rw [h.is]
      simp only [plusS, plus, Mem.dead, State.mk.injEq, Mem.mk.injEq, true_and, and_true]
      funext i
      by_cases hi : i = r
      · subst hi; simp [upd, hn]
      · simp [upd, hi]
    · intro i o e
      simp only [upd] at e
      split at e
      · cases e
      · exact h.apart i o e
    · exact Inv.more h.good rfl rfl (Nat.le_refl _) rfl
  refine ⟨_, _, _, ?_, hs, ?_, rfl, rfl⟩
  · simp [drop, lift, destroyObj_eq ho]
  · rw [hs.abs, h.abs]
    unfold VMem.abs VMem.view
    rfl

theorem storable_target {P : Prog} {t : Nat} (h : target P t = true) : (P.ty t).place ≠ .array ∧ storable P t true = true := by
  simpa [target] using h

theorem holds_le_replace {P : Prog} {a c : Content} {t v n : Nat} (h : (replace P a (fromValue P t v true) n).1 = .ok c) : holds c = 1 := by
  obtain ⟨b, h1, h2⟩ := replace_inv h
  rw [h2.holds, (fromValue_alike h1).holds]
  rfl

theorem convert_ends {P : Prog} {s0 s : State} {g : Nat → Option Obj} (h : Sim P s0 g s) (x t : Nat) (how : Held → Src) {N : Nat} (hN : x < N) :
    Ends P s N (leaves P x t how (VMem.abs s)) (converted P x t how (VMem.abs s)) (convert P x t how s) := by
  have eenv : s.env = s0.env := by rw [h.is]; rfl
  have hσ : (VMem.abs s).σ x = VMem.view s x := rfl
  cases ex : s.env (some x) with
  | none =>
    have hv : VMem.view s x = none := by simp [VMem.view, ex]
    have e1 : converted P x t how (VMem.abs s) = (.ok (), VMem.abs s) := by simp [converted, hσ, hv]
    have e2 : leaves P x t how (VMem.abs s) = 0 := by simp [leaves, hσ, hv]
    have e3 : convert P x t how s = (.ok (), s) := by simp [convert, ex]
    rw [e1, e2, e3]
    exact EndsNop h N
  | some var =>
    have ex0 : s0.env (some x) = some var := by rw [← eenv]; exact ex
    obtain ⟨a, ha⟩ := Option.isSome_iff_exists.1 (Inv.content_some h.good ex0)
    have hv0 : VMem.view s0 x = some a := by simp [VMem.view, ex0, ha]
    have hv : VMem.view s x = some a := by rw [h.view]; exact hv0
    have hlook : look P var s.mem = (.ok (heldOf a), s.mem) := by
      rw [h.is]; exact look_is h.good g ex0 ha
    cases ht : target P t with
    | false =>
      have e1 : converted P x t how (VMem.abs s) = (.ok (), VMem.abs s) := by simp [converted, hσ, hv, ht]
      have e2 : leaves P x t how (VMem.abs s) = 0 := by simp [leaves, hσ, hv, ht]
      have e3 : convert P x t how s = (.ok (), s) := by
        have : ¬((P.ty t).place ≠ .array ∧ ((P.ty t).copyable || (P.ty t).movable) = true) := by
          intro hc
          simp [target, storable, hc.1] at ht
          simp [ht] at hc
        simp only [convert, ex, this, if_false]
      rw [e1, e2, e3]
      exact EndsNop h N
    | true =>
      obtain ⟨harr, hst⟩ := storable_target ht
      have hcond : (P.ty t).place ≠ .array ∧ ((P.ty t).copyable || (P.ty t).movable) = true := ⟨harr, by simpa [storable] using hst⟩
      have e3 : convert P x t how s = bindM (to P t (comesFrom t how a)) (fun r => store P t x r) s := by
        simp only [convert, ex, hcond, if_true, ne_eq, not_false_eq_true, and_self]
        simp only [bindM, hlook, source_heldOf]
      have hts := to_spec harr (comesFrom t how a) s.mem
      have htidy := Tidy.to P t (comesFrom t how a) s.mem h.below
      have e1 : converted P x t how (VMem.abs s) = match (toS P t (comesFrom t how a)).1 with
          | .ok v => (VMem.abs s).act (replace P a (fromValue P t v true)) fun c => upd (VMem.abs s).σ x (some c)
          | o => (toUnit o, VMem.abs s) := by
        simp only [converted, hσ, hv, ht, if_true]
        cases (toS P t (comesFrom t how a)).1 <;> rfl
      have e2 : leaves P x t how (VMem.abs s) = match (converted P x t how (VMem.abs s)).1 with
          | .ok _ => swapMoves P (.val t 0) a
          | _ => (toS P t (comesFrom t how a)).2.length := by
        simp only [leaves, hσ, hv, ht, if_true]
        cases (converted P x t how (VMem.abs s)).1 <;> rfl
      rw [e2, e1, e3]
      clear e1 e2 e3
      rcases hto : toS P t (comesFrom t how a) with ⟨o, l⟩
      rw [hto] at hts
      cases o with
      | threw =>
        obtain ⟨m', e, hE⟩ := hts
        rw [e] at htidy
        obtain ⟨s0', g', hs, hvw0, -⟩ := h.more hE.objs hE.nextObj htidy.1 htidy.2.1 htidy.2.2
        have hvw : VMem.view ⟨s.env, m'⟩ = VMem.view s := by
          rw [hs.view, hvw0, h.view]
        refine .inr (.inl ⟨⟨s.env, m'⟩, s0', g', by simp only [bindM, e], hs, ?_, hvw, ?_⟩)
        · simp only [toUnit, VMem.abs, hvw, Prod.mk.injEq, Abs.mk.injEq, true_and]
          exact htidy.2.1.symm
        · have := hE.bal fun _ => true
          simp only [ctors_all, dtors_all, List.countP_nil, List.countP_true] at this
          dsimp only [toUnit]
          omega
      | terminated =>
        refine .inr (.inr (.inl ⟨(to P t (comesFrom t how a) s.mem).2 |> fun m => ⟨s.env, m⟩, ?_, rfl⟩))
        dsimp only at hts
        simp only [bindM]
        rcases e : to P t (comesFrom t how a) s.mem with ⟨o, m⟩
        rw [e] at hts
        dsimp only at hts
        subst hts
        rfl
      | ub => exact hts.elim
      | ok v =>
        obtain ⟨m', r, e, hr, hrl, hrn, rfl, hE, -⟩ := hts
        rw [e] at htidy
        obtain ⟨s0', g', hs, hvw0, hg⟩ := h.more hE.objs hE.nextObj htidy.1 htidy.2.1 htidy.2.2
        have hgr : g' r = some ⟨t, v⟩ := by rw [hg r hrl]; exact hr
        have hvw : VMem.view ⟨s.env, m'⟩ = VMem.view s := by rw [hs.view, hvw0, h.view]
        have habs : VMem.abs ⟨s.env, m'⟩ = VMem.abs s := by
          unfold VMem.abs
          rw [hvw]
          have hnb := htidy.2.1
          dsimp only at hnb ⊢
          rw [hnb]
        have hbal := hE.bal fun _ => true
        simp only [ctors_all, dtors_all, List.countP_nil, List.countP_cons, if_true] at hbal
        have est : bindM (to P t (comesFrom t how a)) (fun r => store P t x r) s =
            finally' (viaTemp P (newValue P Option.none t v true) x) (drop t r) ⟨s.env, m'⟩ := by
          simp only [bindM, e, store, hr]
        rw [est]
        have habs0 : VMem.abs s0' = VMem.abs s := by rw [← habs, hs.abs]
        have hv0' : VMem.view s0' x = some a := by rw [hvw0]; exact hv0
        have hlive : isLive s0' x = true := by
          have := hs.good.live (some x)
          rw [see_some, hv0'] at this
          exact this.symm
        have hex : exec P (.assignValue x t v true) s0' = viaTemp P (newValue P Option.none t v true) x s0' := by
          simp only [exec, hlive, Bool.true_and, hcond.2, Bool.not_true, Bool.or_self, Bool.false_eq_true, if_false]
        have hf := FrameS.viaTemp P (FrameS.newValue P Option.none t v true) x g' s0' hs.apart
        have hexa := exec_exact hs.good hs.noTemp (.assignValue x t v true)
        rw [hex] at hexa
        have hm : meant P (.assignValue x t v true) (VMem.abs s0') =
            (VMem.abs s).act (replace P a (fromValue P t v true)) fun c => upd (VMem.abs s).σ x (some c) := by
          rw [habs0]
          simp only [meant, hσ, hv, hst, Bool.not_true, Bool.false_eq_true, if_false]
        have hobj := fun s' => meant_objects (P := P) (c := .assignValue x t v true) (s := VMem.abs s0') (s' := s') (N := N) (by simp [Cmd.names, hN])
        rw [hm] at hexa hobj
        have hsm : swapMoves P (.val t 0) a = swapMoves P (.val t v) a := by simp [swapMoves, inside]
        have eσ : (VMem.abs s0').σ = VMem.view s0' := rfl
        have hmv : moves P (VMem.view s0') (.assignValue x t v true) = swapMoves P (.val t v) a := by simp [moves, hv0', hst]
        have elog : s0'.mem.log = m'.log := by
          have := hs.is
          rw [State.mk.injEq] at this
          rw [this.2]; rfl
        have eis : (⟨s.env, m'⟩ : State) = plusS s0' g' := hs.is
        dsimp only
        generalize hact : ((VMem.abs s).act (replace P a (fromValue P t v true)) fun c => upd (VMem.abs s).σ x (some c)) = w at hexa hobj ⊢
        rcases hexa with ⟨s2, e2, gd2, h2, ea, hc⟩ | ⟨m2, e2, ea, hl⟩ | ⟨s2, e2, ea⟩ | ⟨s2, e2, ea⟩
        · rw [e2] at hf
          obtain ⟨h1, hap⟩ := hf (by simp)
          have hs2 : Sim P s2 g' (plusS s2 g') := ⟨rfl, hap, gd2, h2⟩
          obtain ⟨s3, s03, g3, ed, hs3, hab, hmade, hend⟩ := hs2.dead hgr
          have hob := hobj _ ea
          refine .inl ⟨s3, s03, g3, ?_, hs3, by rw [ea, hab, hs2.abs]; rfl, ?_⟩
          · simp only [eis, finally', h1, ed]
          · have hv3 : VMem.view s3 = VMem.view s2 := by
              have := congrArg Abs.σ hab
              exact this.trans hs2.view
            rw [hv3, hmade, hend, plus_log, ea]
            dsimp only at hob ⊢
            unfold Counts at hc
            rw [hmv, elog] at hc
            rw [eσ, hvw0, ← h.view] at hob
            rw [hvw0, ← h.view] at hc
            omega
        · rw [e2] at hf
          obtain ⟨h1, hap⟩ := hf (by simp)
          have hs2 : Sim P ⟨s0'.env, m2⟩ g' (plusS ⟨s0'.env, m2⟩ g') := ⟨rfl, hap, Inv.lost hs.good hl, hs.noTemp⟩
          obtain ⟨s3, s03, g3, ed, hs3, hab, hmade, hend⟩ := hs2.dead hgr
          have hv3 : VMem.view s3 = VMem.view s := by
            have := congrArg Abs.σ hab
            refine this.trans (hs2.view.trans ?_)
            rw [view_lost hs.good hl, hvw0, h.view]
          refine .inr (.inl ⟨s3, s03, g3, ?_, hs3, ?_, hv3, ?_⟩)
          · simp only [eis, finally', h1, ed]
          · rw [ea, hab, hs2.abs]
            unfold VMem.abs
            rw [view_lost hs.good hl]
          · have hc := Counts.lost hl
            unfold Counts at hc
            rw [elog] at hc
            rw [hmade, hend, plus_log, ea]
            dsimp only [List.length_nil]
            omega
        · rw [e2] at hf
          obtain ⟨h1, -⟩ := hf (by simp)
          exact .inr (.inr (.inl ⟨plusS s2 g', by simp only [eis, finally', h1], ea⟩))
        · exact .inr (.inr (.inr ea))

end Rtti.InPlace
