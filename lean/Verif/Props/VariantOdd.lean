import Verif.Lemmas.VariantOdd
import Verif.Props.VariantMem
/-! C36, reading storage: which operations on variants read a pointer that was never written. -/
set_option autoImplicit false
namespace Rtti.Props
open Rtti.VMem

/-- the variant `x` holds an object that is not in its buffer -/
def HoldsHeap (P : Prog) (s : State) (x : Nat) : Prop :=
  ∃ v t, s.env (some x) = some v ∧ v.mgr = .own t ∧ (P.ty t).place ≠ .small

/-- the command swaps an object that is not in a buffer -/
def SwapsHeap (P : Prog) (s : State) : Cmd → Prop
  | .move _ y => HoldsHeap P s y
  | .assign x y => HoldsHeap P s x ∨ HoldsHeap P s y
  | .assignMove x y => HoldsHeap P s x ∨ HoldsHeap P s y
  | .swap x y => HoldsHeap P s x ∨ HoldsHeap P s y
  | .assignValue x t _ _ => HoldsHeap P s x ∨ (P.ty t).place ≠ .small
  | .assignRef x _ _ => HoldsHeap P s x
  | _ => False

private theorem light {P : Prog} {s : State} {x : Nat} (h : ¬HoldsHeap P s x) : Light P s (some x) :=
  fun v hv ⟨t, h1, h2⟩ => h ⟨v, t, hv, h1, h2⟩

private theorem fresh_light (P : Prog) : ¬OnHeap P fresh.mgr := by rintro ⟨t, h, _⟩; cases h

private theorem put_light {P : Prog} {s : State} {k l : Option Nat} {v : Var} (hv : ¬OnHeap P v.mgr) (hl : l ≠ k → Light P s l) :
    Light P (put k (some v) s) l := by
  intro v' h
  simp only [put] at h
  by_cases e : l = k
  · subst e; rw [upd_same] at h; cases h; exact hv
  · rw [upd_ne _ _ e] at h; exact hl e v' h

private theorem swap_light {P : Prog} {y : Var} {m m' : Mem} {r : Var × Var} (h : swap P fresh y m = (.ok r, m'))
    (hy : ¬OnHeap P y.mgr) : ¬OnHeap P r.1.mgr ∧ ¬OnHeap P r.2.mgr := by
  have hv : ¬OnHeap P (Mgr.void) := by rintro ⟨t, h, _⟩; cases h
  unfold swap noexcept at h
  rw [if_pos (show fresh.mgr = .void from rfl)] at h
  split at h
  · rename_i h'; split at h <;> cases h
  · split at h
    · cases h; exact ⟨fresh_light P, hy⟩
    · obtain ⟨p, m1, _, h2⟩ := bind_ok h
      cases h2
      exact ⟨hy, hv⟩

/-- Only a command that swaps an object on the heap reads a pointer nobody wrote: nothing else, in whatever state, reads one.
    The conditions do not mention how an object gets from one variant to the other. -/
theorem C36_reads_only (P : Prog) (c : Cmd) (s : State) (h : (exec P c s).2.mem.odd ≠ s.mem.odd) : SwapsHeap P s c := by
  refine Classical.byContradiction fun hn => h ?_
  cases c with
  | empty x => simp only [exec]; split <;> rfl
  | value x t v r => simp only [exec]; split; · rfl
                     exact SamePtrS.newValue P _ t v r s
  | ref x t a => simp only [exec]; split <;> rfl
  | copy x y => simp only [exec]; split; · rfl
                exact SamePtrS.newCopy P _ _ s
  | move x y => simp only [exec]; split; · rfl
                exact SamePtrS.newMove (light hn)
  | assign x y =>
    simp only [exec]; split; · rfl
    have hx := light fun h => hn (.inl h)
    have hy := light fun h => hn (.inr h)
    refine SamePtrS.viaTemp (SamePtrS.newCopy P _ _ s) fun s' h => ?_
    unfold newCopy at h
    rename_i hl
    cases e : s.env (some y) with
    | none => simp [isLive, e] at hl
    | some v =>
      rw [e] at h
      obtain ⟨a, m, h1, rfl⟩ := lift_ok h
      obtain ⟨d, m1, _, h2⟩ := bind_ok h1
      cases h2
      exact ⟨put_light (hy v e) fun h => absurd rfl h, put_light (hy v e) fun _ => hx⟩
  | assignMove x y =>
    simp only [exec]; split; · rfl
    rename_i hl
    have hx := light fun h => hn (.inl h)
    have hy := light fun h => hn (.inr h)
    refine SamePtrS.viaTemp (SamePtrS.newMove hy) fun s' h => ?_
    unfold newMove seq newEmpty doSwap at h
    cases e : s.env (some y) with
    | none => simp [isLive, e] at hl
    | some v =>
      have e1 : (put none (some fresh) s).env none = some fresh := by simp [put]
      have e2 : (put none (some fresh) s).env (some y) = some v := by simp [put, upd, e]
      simp only [e1, e2] at h
      rw [if_neg nofun] at h
      obtain ⟨r, m, h1, rfl⟩ := lift_ok h
      obtain ⟨l1, l2⟩ := swap_light h1 (hy v e)
      refine ⟨put_light l2 fun _ => put_light l1 fun h => absurd rfl h, put_light l2 fun _ => put_light l1 fun _ => ?_⟩
      exact put_light (s := s) (k := none) (fresh_light P) fun _ => hx
  | assignValue x t v r =>
    simp only [exec]; split; · rfl
    rename_i hl
    have hx := light fun h => hn (.inl h)
    have ht : ¬OnHeap P (.own t) := by
      rintro ⟨t', h1, h2⟩
      cases h1
      exact hn (.inr h2)
    refine SamePtrS.viaTemp (SamePtrS.newValue P _ t v r s) fun s' h => ?_
    unfold newValue at h
    split at h
    · obtain ⟨a, m, _, rfl⟩ := lift_ok h
      exact ⟨put_light ht fun h => absurd rfl h, put_light ht fun _ => hx⟩
    · rename_i hc
      simp [hc] at hl
  | assignRef x t a =>
    simp only [exec]; split; · rfl
    have hr : ¬OnHeap P (.ref t) := by rintro ⟨t', h1, _⟩; cases h1
    refine SamePtrS.viaTemp rfl fun s' h => ?_
    cases h
    exact ⟨put_light hr fun h => absurd rfl h, put_light hr fun _ => light hn⟩
  | swap x y => exact SamePtrS.doSwap (light fun h => hn (.inl h)) (light fun h => hn (.inr h))
  | clear x => exact SamePtrS.doClear P _ s
  | destroy x => exact SamePtrS.doDestroy P _ s

/-- A program whose objects all fit into the buffers never does. -/
theorem C36_reads_partial (P : Prog) (hp : ∀ t, (P.ty t).place = .small) (cs : List Cmd) :
    (run P cs VMem.init).2.mem.odd = false := by
  have no : ∀ s c, ¬SwapsHeap P s c := by
    intro s c h
    have no' : ∀ x, ¬HoldsHeap P s x := fun x ⟨_, t, _, _, h⟩ => h (hp t)
    cases c with
    | move _ y => exact no' _ h
    | assign x y => exact h.elim (no' _) (no' _)
    | assignMove x y => exact h.elim (no' _) (no' _)
    | swap x y => exact h.elim (no' _) (no' _)
    | assignValue x t _ _ => exact h.elim (no' _) fun h => h (hp t)
    | assignRef x _ _ => exact no' _ h
    | _ => exact h
  have go : ∀ cs s, s.mem.odd = false → (run P cs s).2.mem.odd = false := by
    intro cs
    induction cs with
    | nil => exact fun s h => h
    | cons c cs ih =>
      intro s h
      have h1 : (exec P c s).2.mem.odd = false := by
        refine Eq.trans (Classical.byContradiction fun hne => no s c (C36_reads_only P c s hne)) h
      unfold run
      split
      · rename_i e; rw [e] at h1; exact ih _ h1
      · rename_i e; rw [e] at h1; exact ih _ h1
      · exact h1
  exact go cs _ rfl

/-- Moving from a variant that holds an object on the heap always does: the storage of the new variant is read. -/
theorem C36_reads_move (P : Prog) (x y : Nat) (s : State) (hx : s.env (some x) = none) (hy : HoldsHeap P s y) :
    (exec P (.move x y) s).2.mem.odd = true := by
  obtain ⟨v, t, h1, h2, h3⟩ := hy
  have hne : y ≠ x := by rintro rfl; rw [h1] at hx; cases hx
  have e1 : (put (some x) (some fresh) s).env (some x) = some fresh := by simp [put]
  have e2 : (put (some x) (some fresh) s).env (some y) = some v := by
    simp only [put]; rw [upd_ne _ _ (by simpa using hne), h1]
  have hv : v.mgr ≠ .void := by rw [h2]; nofun
  have hs : ∀ m, ∃ r, swap P fresh v m = (.ok r, { m with odd := true }) := by
    intro m
    unfold swap noexcept
    rw [if_pos (show fresh.mgr = .void from rfl), if_neg hv]
    simp only [h2, fMove]
    cases hp : (P.ty t).place with
    | small => exact absurd hp h3
    | _ => cases v.cell <;> exact ⟨_, rfl⟩
  simp only [exec, isLive, hx, h1, newMove, seq, newEmpty, doSwap, e1, e2]
  obtain ⟨r, hr⟩ := hs s.mem
  have hne' : (some x : Option Nat) ≠ some y := by simpa using fun e => hne e.symm
  simp [lift, hr, put, hne']

/-- the storage holds no pointer: never written, or an object in the buffer -/
def NoPointer : Cell → Prop
  | .raw => True
  | .obj _ => True
  | _ => False

private theorem noPointer_read (c : Cell) (m : Mem) :
    ∃ m', readPtr c m = (.ok (), m') ∧ (m'.odd = true ↔ m.odd = true ∨ NoPointer c) := by
  cases c <;> exact ⟨_, rfl, by simp [NoPointer]⟩

private theorem fMove_heap {P : Prog} {t b : Nat} (h : (P.ty t).place ≠ .small) (d : Cell) (m : Mem) :
    ∃ m', fMove P (.own t) (.block b) d m = (.ok (d, .block b), m') ∧ (m'.odd = true ↔ m.odd = true ∨ NoPointer d) := by
  obtain ⟨m1, e1, o1⟩ := noPointer_read d m
  have : fMove P (.own t) (.block b) d = (do readPtr (.block b); readPtr d; pure (d, .block b)) := by
    unfold fMove
    cases hp : (P.ty t).place with
    | small => exact absurd hp h
    | _ => dsimp only; rw [hp]
  refine ⟨m1, ?_, o1⟩
  rw [this]
  change M.bind _ _ _ = _
  unfold M.bind
  change M.bind _ _ _ = _
  unfold M.bind
  change (match readPtr d m with | _ => _) = _
  rw [e1]
  rfl

private theorem fMove_odd {P : Prog} {t : Nat} (h : (P.ty t).place = .small) {c d : Cell} {m m' : Mem} {r : Cell × Cell}
    (e : fMove P (.own t) c d m = (.ok r, m')) : m'.odd = m.odd ∧ NoPointer r.1 ∧ NoPointer r.2 := by
  unfold fMove at e
  dsimp only at e; rw [h] at e
  cases c with
  | obj id =>
    simp only at e
    unfold noexcept at e
    split at e
    · split at e <;> cases e
    · obtain ⟨a, m1, e1, e2⟩ := bind_ok e
      cases e2
      have := (SamePtr.moveObj P t id).eq m
      rw [e1] at this
      exact ⟨this, trivial, trivial⟩
  | _ => cases e

private theorem fMove_ok {P : Prog} {g : Mgr} {c d : Cell} {m m' : Mem} {r : Cell × Cell} (hc : OnHeap P g → ∃ k, c = .block k)
    (e : fMove P g c d m = (.ok r, m')) : (m'.odd = true ↔ m.odd = true ∨ (OnHeap P g ∧ NoPointer d)) ∧ (OnHeap P g → r = (d, c)) ∧
      (¬OnHeap P g → (∃ t, g = .own t) → NoPointer r.1) ∧ (∀ t, g = .ref t → r = (c, c)) := by
  cases g with
  | void =>
    have no : ¬OnHeap P .void := by rintro ⟨_, h, _⟩; cases h
    cases e
    exact ⟨by simp [no], fun h => absurd h no, fun _ ⟨_, h⟩ => (by cases h), fun _ h => by cases h⟩
  | ref t =>
    have no : ¬OnHeap P (.ref t) := by rintro ⟨_, h, _⟩; cases h
    cases e
    exact ⟨by simp [no], fun h => absurd h no, fun _ ⟨_, h⟩ => (by cases h), fun _ _ => rfl⟩
  | own t =>
    by_cases hp : (P.ty t).place = .small
    · have no : ¬OnHeap P (.own t) := by rintro ⟨_, h, h'⟩; cases h; exact h' hp
      obtain ⟨h1, h2, _⟩ := fMove_odd hp e
      exact ⟨by simp [no, h1], fun h => absurd h no, fun _ _ => h2, fun _ h => by cases h⟩
    · have on : OnHeap P (.own t) := ⟨t, rfl, hp⟩
      obtain ⟨k, rfl⟩ := hc on
      obtain ⟨m1, e1, o1⟩ := fMove_heap (b := k) hp d m
      rw [e1] at e
      cases e
      exact ⟨by simp [on, o1], fun _ => rfl, fun h => absurd on h, fun _ h => by cases h⟩

/-- Swapping two variants, from a state a program reaches: exactly when storage that holds no pointer is read as one. With
    an empty variant it depends on what its storage was used for; with two others it is always so if the first holds an object on
    the heap (the storage of the temporary is read), or the second does and the first has an object in its buffer. -/
theorem C36_reads_swap (P : Prog) (cs : List Cmd) (h : (run P cs VMem.init).1 = .ok ()) (x y : Nat) (hxy : x ≠ y) (a b : Var)
    (ha : (run P cs VMem.init).2.env (some x) = some a) (hb : (run P cs VMem.init).2.env (some y) = some b)
    (hok : (exec P (.swap x y) (run P cs VMem.init).2).1 = .ok ()) (h0 : (run P cs VMem.init).2.mem.odd = false) :
    (exec P (.swap x y) (run P cs VMem.init).2).2.mem.odd = true ↔
      (a.mgr = .void ∧ HoldsHeap P (run P cs VMem.init).2 y ∧ NoPointer a.cell) ∨
      (b.mgr = .void ∧ HoldsHeap P (run P cs VMem.init).2 x ∧ NoPointer b.cell) ∨
      (b.mgr ≠ .void ∧ HoldsHeap P (run P cs VMem.init).2 x) ∨
      ((∃ t, a.mgr = .own t) ∧ HoldsHeap P (run P cs VMem.init).2 y) := by
  obtain ⟨g, -⟩ := reach h
  generalize (run P cs VMem.init).2 = s at *
  have hx : ∀ {z : Nat} {v : Var}, s.env (some z) = some v → (HoldsHeap P s z ↔ ∃ t, v.mgr = .own t ∧ (P.ty t).place ≠ .small) := by
    intro z v hz
    constructor
    · rintro ⟨v', t, h1, h2⟩
      rw [hz] at h1; cases h1
      exact ⟨t, h2⟩
    · rintro ⟨t, h2⟩; exact ⟨v, t, hz, h2⟩
  rw [hx ha, hx hb]
  have heap : ∀ {z : Nat} {v : Var}, s.env (some z) = some v → ∀ t, v.mgr = .own t → (P.ty t).place ≠ .small → ∃ k, v.cell = .block k := by
    intro z v hz t hm hp
    obtain ⟨m, c⟩ := v
    cases hm
    obtain ⟨k, _, _, e, _⟩ := g.big _ _ _ hz hp
    exact ⟨k, e⟩
  have hxy' : (some x : Option Nat) ≠ some y := by simpa using hxy
  simp only [exec, doSwap, ha, hb, if_neg hxy', lift] at hok ⊢
  cases hs : VMem.swap P a b s.mem with
  | mk o m =>
    rw [hs] at hok
    cases o with
    | ok r =>
      change m.odd = true ↔ _
      have hs' : (if a.mgr = .void then
          if b.mgr = .void then (pure (a, b) : M (Var × Var))
          else do
            let (_, d) ← fMove P b.mgr b.cell a.cell
            pure (⟨b.mgr, d⟩, ⟨.void, .null⟩)
        else if b.mgr = .void then do
          let (_, d) ← fMove P a.mgr a.cell b.cell
          pure (⟨.void, .null⟩, ⟨a.mgr, d⟩)
        else do
          let (xs, temporary) ← fMove P a.mgr a.cell .raw
          let (ys, xs) ← fMove P b.mgr b.cell xs
          let (_, ys) ← fMove P a.mgr temporary ys
          pure (⟨b.mgr, xs⟩, ⟨a.mgr, ys⟩)) s.mem = (.ok r, m) := by
        unfold VMem.swap noexcept at hs
        split at hs
        · simp only [if_true] at hs; cases hs
        · exact hs
      clear hs
      have heapA : OnHeap P a.mgr → ∃ k, a.cell = .block k := fun ⟨t, h1, h2⟩ => heap ha t h1 h2
      have heapB : OnHeap P b.mgr → ∃ k, b.cell = .block k := fun ⟨t, h1, h2⟩ => heap hb t h1 h2
      have nv : ¬OnHeap P .void := by rintro ⟨_, h, _⟩; cases h
      change _ ↔ (_ ∧ OnHeap P b.mgr ∧ _) ∨ (_ ∧ OnHeap P a.mgr ∧ _) ∨ (_ ∧ OnHeap P a.mgr) ∨ (_ ∧ OnHeap P b.mgr)
      by_cases va : a.mgr = .void
      · rw [if_pos va] at hs'
        by_cases vb : b.mgr = .void
        · rw [if_pos vb] at hs'
          cases hs'
          simp [va, vb, nv, h0]
        · rw [if_neg vb] at hs'
          obtain ⟨p, m1, e1, e2⟩ := bind_ok hs'
          cases e2
          rw [(fMove_ok heapB e1).1]
          simp [va, vb, nv, h0]
      · rw [if_neg va] at hs'
        by_cases vb : b.mgr = .void
        · rw [if_pos vb] at hs'
          obtain ⟨p, m1, e1, e2⟩ := bind_ok hs'
          cases e2
          rw [(fMove_ok heapA e1).1]
          simp [va, vb, nv, h0]
        · rw [if_neg vb] at hs'
          obtain ⟨p, m1, e1, hs'⟩ := bind_ok hs'
          obtain ⟨q, m2, e2, hs'⟩ := bind_ok hs'
          obtain ⟨u, m3, e3, e4⟩ := bind_ok hs'
          cases e4
          obtain ⟨o1, r1, s1, t1⟩ := fMove_ok heapA e1
          obtain ⟨o2, -⟩ := fMove_ok heapB e2
          have o3 := (fMove_ok (fun x => by rw [r1 x]; exact heapA x) e3).1
          rw [o3, o2, o1]
          simp only [va, vb, h0, NoPointer, Bool.false_eq_true, false_or, and_true, false_and, not_false_eq_true, true_and, ne_eq]
          by_cases A : OnHeap P a.mgr
          · simp [A]
          · simp only [A, false_or, false_and, or_false]
            by_cases B : OnHeap P b.mgr
            · simp only [B, true_and, and_true]
              cases hm : a.mgr with
              | void => exact absurd hm va
              | own t => exact ⟨fun _ => ⟨t, rfl⟩, fun _ => s1 A ⟨t, hm⟩⟩
              | ref t =>
                constructor
                · intro n
                  rw [t1 t hm] at n
                  obtain ⟨m, c⟩ := a
                  cases hm
                  obtain ⟨k, rfl⟩ := g.refs _ _ _ ha
                  exact n.elim
                · rintro ⟨_, h⟩; cases h
            · simp [B]
    | _ => cases hok

/-- an object in the buffer swapped with one on the heap; a reference swapped with one on the heap -/
example : (run sample [.value 0 0 5 false, .value 1 1 7 false] VMem.init).1 = .ok () ∧
    (exec sample (.swap 0 1) (run sample [.value 0 0 5 false, .value 1 1 7 false] VMem.init).2).1 = .ok () ∧
    (exec sample (.swap 0 1) (run sample [.value 0 0 5 false, .value 1 1 7 false] VMem.init).2).2.mem.odd = true ∧
    (exec sample (.swap 0 1) (run sample [.ref 0 0 5, .value 1 1 7 false] VMem.init).2).1 = .ok () ∧
    (exec sample (.swap 0 1) (run sample [.ref 0 0 5, .value 1 1 7 false] VMem.init).2).2.mem.odd = false ∧
    (exec sample (.swap 1 0) (run sample [.ref 0 0 5, .value 1 1 7 false] VMem.init).2).2.mem.odd = true := by decide

private def allSmall : Prog := ⟨fun _ => sampleTypes 0, fun _ => false⟩
example : ∀ t, (allSmall.ty t).place = .small := fun _ => rfl
example : (run allSmall tour VMem.init).1 = .ok () ∧ (view (run allSmall tour VMem.init).2 2).isSome := ⟨by decide, by decide⟩
example : HoldsHeap sample (run sample [.value 0 1 7 false] VMem.init).2 0 := ⟨_, 1, rfl, rfl, by decide⟩
-- assigning to a variant that was cleared reads nothing odd; a new one's storage was never written
example : (run sample [.value 0 1 7 false, .empty 1, .clear 1, .swap 1 0] VMem.init).2.mem.odd = false := by decide
example : (run sample [.value 0 1 7 false, .empty 1, .swap 1 0] VMem.init).2.mem.odd = true := by decide

end Rtti.Props
