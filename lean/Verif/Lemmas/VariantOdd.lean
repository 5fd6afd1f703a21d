import Verif.Model.VariantMem
import Verif.Lemmas.World
/-! Which functions of a variant read a pointer that was never written (C36). -/
set_option autoImplicit false
namespace Rtti.VMem

/-- the flag `odd` is left as it is -/
structure SamePtr {A : Type} (f : M A) : Prop where
  eq : ∀ m, (f m).2.odd = m.odd
def SamePtrS (f : Step) : Prop := ∀ s, (f s).2.mem.odd = s.mem.odd

theorem SamePtr.pure {A : Type} (a : A) : SamePtr (Pure.pure a : M A) := ⟨fun _ => rfl⟩
theorem SamePtr.ub {A : Type} : SamePtr (M.ub : M A) := ⟨fun _ => rfl⟩

theorem SamePtr.bind {A B : Type} {f : M A} {g : A → M B} (hf : SamePtr f) (hg : ∀ a, SamePtr (g a)) :
    SamePtr (f >>= g) := by
  refine ⟨fun m => ?_⟩
  have := hf.eq m
  change (M.bind f g m).2.odd = _
  unfold M.bind
  split <;> rename_i h <;> rw [h] at this
  · rw [(hg _).eq]; exact this
  all_goals exact this

theorem SamePtr.noexcept {A : Type} {c : Bool} {f : M A} (hf : SamePtr f) : SamePtr (noexcept c f) := by
  refine ⟨fun m => ?_⟩
  have := hf.eq m
  unfold VMem.noexcept
  split
  · rename_i h; rw [h] at this; split <;> exact this
  · exact this

theorem SamePtr.allocate (P : Prog) : SamePtr (allocate P) := by
  refine ⟨fun m => ?_⟩; unfold VMem.allocate; split <;> rfl
theorem SamePtr.deallocate (b : Nat) : SamePtr (deallocate b) := by
  refine ⟨fun m => ?_⟩; unfold VMem.deallocate; split <;> rfl
theorem SamePtr.destroyObj (t id : Nat) : SamePtr (destroyObj t id) := by
  refine ⟨fun m => ?_⟩; unfold VMem.destroyObj; repeat' split
  all_goals rfl
theorem SamePtr.copyVal (P : Prog) (t v : Nat) : SamePtr (copyVal P t v) := by
  refine ⟨fun m => ?_⟩; unfold VMem.copyVal; repeat' split
  all_goals rfl
theorem SamePtr.copyObj (P : Prog) (t id : Nat) : SamePtr (copyObj P t id) := by
  refine ⟨fun m => ?_⟩; unfold VMem.copyObj; repeat' split
  all_goals first | rfl | exact (SamePtr.copyVal P t _).eq m
theorem SamePtr.moveVal (P : Prog) (t v : Nat) : SamePtr (moveVal P t v) := by
  refine ⟨fun m => ?_⟩
  have := (SamePtr.copyVal P t v).eq m
  unfold VMem.moveVal
  split
  · split
    · rfl
    · split <;> rfl
  · split <;> rename_i h <;> rw [h] at this <;> exact this
theorem SamePtr.moveObj (P : Prog) (t id : Nat) : SamePtr (moveObj P t id) := by
  refine ⟨fun m => ?_⟩; unfold VMem.moveObj
  split
  · rfl
  · rename_i o _
    split
    · have := (SamePtr.moveVal P t o.val).eq m
      split <;> rename_i h <;> rw [h] at this <;> exact this
    · rfl
theorem SamePtr.setBlock (b id : Nat) : SamePtr (setBlock b id) := by
  refine ⟨fun m => ?_⟩; unfold VMem.setBlock; split <;> rfl
theorem SamePtr.inBlock (b : Nat) : SamePtr (inBlock b) := by
  refine ⟨fun m => ?_⟩; unfold VMem.inBlock; split <;> rfl
theorem SamePtr.moveNew (P : Prog) (t v : Nat) : SamePtr (moveNew P t v) :=
  .bind (.moveVal P t v) fun _ => .pure _
theorem SamePtr.fCopyConstruct (P : Prog) (t v : Nat) : SamePtr (fCopyConstruct P t v) := by
  refine .noexcept ?_
  split
  · exact .bind (.copyVal ..) fun _ => .pure _
  · exact .bind (.allocate _) fun _ => .bind (.copyVal ..) fun _ => .bind (.setBlock ..) fun _ => .pure _
theorem SamePtr.fMoveConstruct (P : Prog) (t v : Nat) : SamePtr (fMoveConstruct P t v) := by
  refine .noexcept ?_
  split
  · exact .bind (.moveNew ..) fun _ => .pure _
  · exact .bind (.allocate _) fun _ => .bind (.moveNew ..) fun _ => .bind (.setBlock ..) fun _ => .pure _
theorem SamePtr.locate (p : Place) (c : Cell) : SamePtr (locate p c) := by
  unfold VMem.locate
  split
  · exact .pure _
  · exact .ub
  · exact .inBlock _
  · exact .ub
theorem SamePtr.fCopy (P : Prog) (g : Mgr) (a b : Cell) : SamePtr (fCopy P g a b) := by
  unfold VMem.fCopy
  split
  · exact .pure _
  · exact .pure _
  · refine .noexcept ?_
    split
    · exact .bind (.bind (.locate ..) fun _ => .copyObj ..) fun _ => .pure _
    · exact .bind (.allocate _) fun _ => .bind (.bind (.locate ..) fun _ => .copyObj ..) fun _ => .bind (.setBlock ..) fun _ => .pure _
theorem SamePtr.fDestroy (P : Prog) (g : Mgr) (c : Cell) : SamePtr (fDestroy P g c) := by
  unfold VMem.fDestroy
  split
  · exact .pure _
  · exact .pure _
  · split
    · exact .destroyObj ..
    · exact .ub
    · exact .bind (.locate ..) fun _ => .bind (.destroyObj ..) fun _ => .deallocate _
    · exact .ub

/-- `g` is of a variant that holds an object on the heap (or an array, whose table moves pointers likewise) -/
def OnHeap (P : Prog) (g : Mgr) : Prop := ∃ t, g = .own t ∧ (P.ty t).place ≠ .small

theorem SamePtr.fMove {P : Prog} {g : Mgr} (h : ¬OnHeap P g) (a b : Cell) : SamePtr (fMove P g a b) := by
  unfold VMem.fMove
  split
  · exact .pure _
  · exact .pure _
  · split
    · exact .noexcept (.bind (.moveObj ..) fun _ => .pure _)
    · exact .ub
    · rename_i hp _
      exact absurd ⟨_, rfl, hp⟩ h

theorem SamePtr.swap {P : Prog} {x y : Var} (hx : ¬OnHeap P x.mgr) (hy : ¬OnHeap P y.mgr) : SamePtr (swap P x y) := by
  refine .noexcept ?_
  split
  · split
    · exact .pure _
    · exact .bind (.fMove hy ..) fun _ => .pure _
  · split
    · exact .bind (.fMove hx ..) fun _ => .pure _
    · exact .bind (.fMove hx ..) fun _ => .bind (.fMove hy ..) fun _ => .bind (.fMove hx ..) fun _ => .pure _

theorem SamePtr.swapSelf {P : Prog} {x : Var} (hx : ¬OnHeap P x.mgr) : SamePtr (swapSelf P x) := by
  refine .noexcept ?_
  split
  · exact .pure _
  · exact .pure _
  · rename_i t hm
    split
    · split
      · exact .bind (.moveObj ..) fun _ => .bind (.moveObj ..) fun _ => .pure _
      · exact .ub
    · exact .ub
    · rename_i hp _
      exact absurd ⟨t, hm, hp⟩ hx

theorem SamePtr.clear (P : Prog) (x : Var) : SamePtr (clear P x) := .bind (.fDestroy ..) fun _ => .pure _
theorem SamePtr.copyOf (P : Prog) (x : Var) : SamePtr (copyOf P x) := .bind (.fCopy ..) fun _ => .pure _

theorem SamePtr.lift {A : Type} {f : M A} {k : A → State → State} (hf : SamePtr f) (hk : ∀ a s, (k a s).mem.odd = s.mem.odd) :
    SamePtrS (lift f k) := by
  intro s
  have := hf.eq s.mem
  unfold VMem.lift
  split <;> rename_i h <;> rw [h] at this
  · rw [hk]; exact this
  all_goals exact this

theorem lift_ok {A : Type} {f : M A} {k : A → State → State} {s s' : State} (h : lift f k s = (.ok (), s')) :
    ∃ a m, f s.mem = (.ok a, m) ∧ s' = k a { s with mem := m } := by
  unfold lift at h
  split at h <;> cases h
  exact ⟨_, _, by assumption, rfl⟩

theorem bind_ok {A B : Type} {f : M A} {g : A → M B} {m m' : Mem} {b : B} (h : (f >>= g) m = (.ok b, m')) :
    ∃ a m1, f m = (.ok a, m1) ∧ g a m1 = (.ok b, m') := by
  change M.bind f g m = _ at h
  unfold M.bind at h
  split at h
  · exact ⟨_, _, by assumption, h⟩
  all_goals cases h

/-- no heap object in the variant named `k` -/
def Light (P : Prog) (s : State) (k : Option Nat) : Prop := ∀ v, s.env k = some v → ¬OnHeap P v.mgr

theorem SamePtrS.seq {f g : Step} {s : State} (hf : (f s).2.mem.odd = s.mem.odd)
    (hg : ∀ s', f s = (.ok (), s') → (g s').2.mem.odd = s'.mem.odd) : (seq f g s).2.mem.odd = s.mem.odd := by
  unfold VMem.seq
  split
  · rename_i s' h
    rw [hg s' h, ← hf, h]
  · exact hf

theorem SamePtrS.doSwap {P : Prog} {k l : Option Nat} {s : State} (hk : Light P s k) (hl : Light P s l) :
    (doSwap P k l s).2.mem.odd = s.mem.odd := by
  unfold VMem.doSwap
  split
  · rename_i x y hx hy
    split
    · exact SamePtr.lift (.swapSelf (hk x hx)) (k := _) (fun _ _ => by rfl) s
    · exact SamePtr.lift (.swap (hk x hx) (hl y hy)) (k := _) (fun _ _ => by rfl) s
  · rfl

theorem SamePtrS.doDestroy (P : Prog) (k : Option Nat) : SamePtrS (doDestroy P k) := by
  intro s
  unfold VMem.doDestroy
  split
  · rfl
  · exact SamePtr.lift (.clear ..) (k := _) (fun _ _ => by rfl) s

theorem SamePtrS.doClear (P : Prog) (k : Option Nat) : SamePtrS (doClear P k) := by
  intro s
  unfold VMem.doClear
  split
  · rfl
  · exact SamePtr.lift (.clear ..) (k := _) (fun _ _ => by rfl) s

theorem SamePtrS.newCopy (P : Prog) (k l : Option Nat) : SamePtrS (newCopy P k l) := by
  intro s
  unfold VMem.newCopy
  split
  · rfl
  · exact SamePtr.lift (.copyOf ..) (k := _) (fun _ _ => by rfl) s

theorem SamePtrS.newValue (P : Prog) (k : Option Nat) (t v : Nat) (r : Bool) : SamePtrS (newValue P k t v r) := by
  intro s
  unfold VMem.newValue
  split
  · refine SamePtr.lift ?_ (k := _) (fun _ _ => by rfl) s
    split
    · exact .fMoveConstruct ..
    · exact .fCopyConstruct ..
  · rfl

theorem SamePtrS.newMove {P : Prog} {k l : Option Nat} {s : State} (hl : Light P s l) :
    (newMove P k l s).2.mem.odd = s.mem.odd := by
  refine SamePtrS.seq rfl fun s' h => ?_
  cases h
  have hk : ∀ v, v = fresh → ¬OnHeap P v.mgr := by rintro _ rfl ⟨t, h, _⟩; cases h
  refine SamePtrS.doSwap (fun v hv => ?_) (fun v hv => ?_)
  · simp only [put, upd_same] at hv; exact hk v (by injection hv with hv; exact hv.symm)
  · simp only [put] at hv
    by_cases e : l = k
    · subst e; rw [upd_same] at hv; exact hk v (by injection hv with hv; exact hv.symm)
    · rw [upd_ne _ _ e] at hv; exact hl v hv

theorem SamePtrS.viaTemp {P : Prog} {mk : Step} {x : Nat} {s : State} (hm : (mk s).2.mem.odd = s.mem.odd)
    (hs : ∀ s', mk s = (.ok (), s') → Light P s' none ∧ Light P s' (some x)) :
    (viaTemp P mk x s).2.mem.odd = s.mem.odd :=
  SamePtrS.seq hm fun s' h => SamePtrS.seq (SamePtrS.doSwap (hs s' h).1 (hs s' h).2) fun s'' _ => SamePtrS.doDestroy P none s''

end Rtti.VMem
