import Verif.Lemmas.VariantExact
import Verif.Props.VariantMem
/-! C36, C38, C39 without side conditions: what every program with variants does, to the last exception. -/
set_option autoImplicit false
namespace Rtti.Props
open VMem

/-- Refinement, for every program and every set of types: the program ends in the way the machine without memory
    says, and then the variants contain what it says. No assumption on constructors, allocations, arrays or swaps. -/
theorem C38_exact (P : Prog) (cs : List Cmd) :
    (run P cs VMem.init).1 = (meaning P cs ⟨fun _ => none, 0⟩).1 ∧
    ((run P cs VMem.init).1 = .ok () →
      view (run P cs VMem.init).2 = (meaning P cs ⟨fun _ => none, 0⟩).2.σ) := by
  rcases run_exact cs (Good.init P) rfl with ⟨s', e, h⟩ | ⟨s', e, h⟩ | ⟨s', e, h⟩
  · have h' : meaning P cs ⟨fun _ => none, 0⟩ = (.ok (), abs s') := h
    rw [e, h']
    exact ⟨rfl, fun _ => rfl⟩
  · have h' : (meaning P cs ⟨fun _ => none, 0⟩).1 = .terminated := h
    rw [e, h']
    exact ⟨rfl, by simp⟩
  · have h' : (meaning P cs ⟨fun _ => none, 0⟩).1 = .ub := h
    rw [e, h']
    exact ⟨rfl, by simp⟩

-- a move that changes the value, a copy that throws, a full memory, an array of objects and a self-swap
example : (meaning sample [.value 0 2 13 true, .empty 1, .assign 1 0, .copy 2 0] ⟨fun _ => none, 0⟩).1 = .ok () := by decide
example : (meaning sampleFull [.value 0 4 7 false] ⟨fun _ => none, 0⟩).1 = .terminated := by decide
example : (meaning sample [.value 0 3 7 false] ⟨fun _ => none, 0⟩).1 = .ub := by decide
example : (meaning sample [.value 0 1 7 false, .swap 0 0] ⟨fun _ => none, 0⟩).1 = .ok () := by decide

theorem Abs.act_ub {A : Type} (s : Abs) (f : Nat → Out A × Nat) (k : A → View) : (s.act f k).1 = .ub ↔ (f s.n).1 = .ub := by
  unfold Abs.act
  rcases f s.n with ⟨o, n⟩
  cases o <;> simp

theorem moveContent_defined (P : Prog) (a : Content) : moveContent P a ≠ .ub := by
  cases a with
  | val t v =>
    unfold moveContent
    dsimp only
    split
    · rename_i hp
      have := moved_defined (P := P) (t := t) (v := v) (by rw [hp]; simp)
      cases hm : moved P t v with
      | ub => exact absurd hm this
      | threw => cases (P.ty t).nothrowMove <;> simp [Out.sealed, Out.bind]
      | _ => simp [Out.sealed, Out.bind]
    · simp
  | _ => simp [moveContent]

theorem bind_defined {A B : Type} {x : Out A} {f : A → Out B} (hx : x ≠ .ub) (hf : ∀ a, f a ≠ .ub) : x.bind f ≠ .ub := by
  cases x with
  | ok a => exact hf a
  | ub => exact absurd rfl hx
  | _ => simp [Out.bind]

theorem sealed_ub {A : Type} {x : Out A} {q : Bool} : x.sealed q = .ub ↔ x = .ub := by
  cases x <;> cases q <;> simp [Out.sealed]

theorem swapContent_defined (P : Prog) (a b : Content) : swapContent P a b ≠ .ub := by
  unfold swapContent
  rw [Ne, sealed_ub]
  have := moveContent_defined P
  split
  · exact bind_defined (this _) (by simp)
  · split
    · exact bind_defined (this _) (by simp)
    · exact bind_defined (this _) fun _ => bind_defined (this _) fun _ => bind_defined (this _) (by simp)

theorem replace_ub (P : Prog) (a : Content) (f : Nat → Out Content × Nat) (n : Nat) : (replace P a f n).1 = .ub ↔ (f n).1 = .ub := by
  unfold replace
  rcases f n with ⟨o, m⟩
  cases o with
  | ok b => simp [bind_defined (swapContent_defined P b a) (f := fun r => Out.ok r.2) (by simp)]
  | _ => simp

theorem copied_ub {P : Prog} {t v : Nat} : copied P t v = .ub ↔ (P.ty t).copyable = true ∧ brokenArray P t = true := by
  unfold copied
  cases (P.ty t).copyable <;> cases brokenArray P t <;> simp
  split <;> simp

theorem moved_ub {P : Prog} {t v : Nat} :
    moved P t v = .ub ↔ ((P.ty t).movable = true ∨ (P.ty t).copyable = true) ∧ brokenArray P t = true := by
  unfold moved
  cases (P.ty t).movable <;> simp [copied_ub]
  cases brokenArray P t <;> simp
  split <;> simp

theorem stored_ub {P : Prog} {t : Nat} {q : Bool} {o : Out Nat} {n : Nat} (h : o = .ub → (P.ty t).place ≠ .small) :
    (stored P t q o n).1 = .ub ↔ o = .ub ∧ P.oom n = false := by
  unfold stored
  have hb : ∀ o : Out Nat, ((o.sealed q).bind fun v => Out.ok (Content.val t v)) = .ub ↔ o = .ub := by
    intro o; cases o <;> cases q <;> simp [Out.sealed, Out.bind]
  split
  · rename_i hp
    simp only [hb]
    constructor
    · intro e; exact absurd hp (h e)
    · exact fun e => e.1
  · cases P.oom n
    · simp [hb]
    · cases q <;> simp [Out.sealed]

theorem broken_iff {P : Prog} {t : Nat} : brokenArray P t = true ↔ (P.ty t).place = .array ∧ (P.ty t).trivial = false := by
  simp [brokenArray]

theorem copyStored_ub {P : Prog} {t v n : Nat} : (stored P t (P.ty t).nothrowCopy (copied P t v) n).1 = .ub ↔
    (P.ty t).copyable = true ∧ (P.ty t).place = .array ∧ (P.ty t).trivial = false ∧ P.oom n = false := by
  rw [stored_ub, copied_ub, broken_iff]
  · simp [and_assoc]
  · rw [copied_ub, broken_iff]; rintro ⟨_, h, _⟩; simp [h]

theorem fromValue_ub {P : Prog} {t v n : Nat} {r : Bool} : (fromValue P t v r n).1 = .ub ↔
    ((P.ty t).copyable = true ∨ r = true ∧ (P.ty t).movable = true) ∧
      (P.ty t).place = .array ∧ (P.ty t).trivial = false ∧ P.oom n = false := by
  unfold fromValue
  cases r
  · simp [copyStored_ub]
  · simp only [if_true]
    rw [stored_ub, moved_ub, broken_iff]
    · simp [and_assoc, or_comm]
    · rw [moved_ub, broken_iff]; rintro ⟨_, h, _⟩; simp [h]

theorem selfSwap_ub {P : Prog} {a : Content} :
    selfSwap P a = .ub ↔ ∃ t v, a = .val t v ∧ (P.ty t).place = .small ∧ (P.ty t).trivial = false := by
  cases a with
  | val t v =>
    unfold selfSwap
    dsimp only
    by_cases hp : (P.ty t).place = .small
    · rw [if_pos hp]
      have hna : (P.ty t).place ≠ .array := by rw [hp]; simp
      cases ht : (P.ty t).trivial
      · simp only [Bool.false_eq_true, if_false, true_iff]
        exact ⟨t, v, rfl, hp, ht⟩
      · have : (((moved P t v).bind (moved P t)).sealed true).bind (fun v => Out.ok (Content.val t v)) ≠ .ub :=
          bind_defined (fun e => bind_defined (moved_defined hna) (fun _ => moved_defined hna) (sealed_ub.1 e)) (by simp)
        simp only [if_true]
        constructor
        · intro e; exact absurd e this
        · rintro ⟨t', v', e, _, h⟩; cases e; simp [ht] at h
    · rw [if_neg hp]
      constructor
      · simp
      · rintro ⟨t', v', e, h, _⟩; cases e; exact absurd h hp
  | _ => simp [selfSwap]

theorem meant_ub (P : Prog) (c : Cmd) (s : Abs) : (meant P c s).1 = .ub ↔ Undefined P c s := by
  unfold Undefined
  cases c with
  | empty x => simp only [meant]; cases h : s.σ x <;> simp [makes]
  | ref x t a => simp only [meant]; cases h : s.σ x <;> simp [makes]
  | clear x => simp only [meant]; cases h : s.σ x <;> simp [makes]
  | destroy x => simp [meant, makes]
  | value x t v r =>
    simp only [meant, makes]
    cases h : s.σ x with
    | some a => simp
    | none =>
      cases hs : storable P t r
      · simp
      · simp only [storable, Bool.or_eq_true, Bool.and_eq_true] at hs
        simp [Abs.act_ub, fromValue_ub, hs]
  | copy x y =>
    simp only [meant, makes]
    cases hx : s.σ x with
    | some a => simp
    | none =>
      cases hy : s.σ y with
      | none => simp
      | some b =>
        cases b with
        | val t v => cases hc : (P.ty t).copyable <;> simp [Abs.act_ub, copyContent, copyStored_ub, hc]
        | _ => simp [Abs.act_ub, copyContent]
  | move x y =>
    simp only [meant, makes]
    cases hx : s.σ x with
    | some a => simp
    | none =>
      cases hy : s.σ y with
      | none => simp
      | some b => simp [Abs.act_ub, still, swapContent_defined]
  | assign x y =>
    simp only [meant, makes]
    cases hx : s.σ x with
    | none => simp
    | some a =>
      cases hy : s.σ y with
      | none => simp
      | some b =>
        by_cases xy : x = y
        · subst xy; cases b <;> simp
        · cases b with
          | val t v => cases hc : (P.ty t).copyable <;> simp [xy, Abs.act_ub, replace_ub, copyContent, copyStored_ub, hc]
          | _ => simp [xy, Abs.act_ub, replace_ub, copyContent]
  | assignMove x y =>
    simp only [meant, makes]
    cases hx : s.σ x with
    | none => simp
    | some a =>
      cases hy : s.σ y with
      | none => simp
      | some b =>
        by_cases xy : x = y
        · subst xy; simp
        · have : ((swapContent P .empty b).bind fun r => (swapContent P r.1 a).bind fun q => Out.ok (q.2, r.2)) ≠ .ub :=
            bind_defined (swapContent_defined P _ _) fun _ => bind_defined (swapContent_defined P _ _) (by simp)
          simp [xy, Abs.act_ub, still, this]
  | assignValue x t v r =>
    simp only [meant, makes]
    cases h : s.σ x with
    | none => simp
    | some a =>
      cases hs : storable P t r
      · simp
      · simp only [storable, Bool.or_eq_true, Bool.and_eq_true] at hs
        simp [Abs.act_ub, replace_ub, fromValue_ub, hs]
  | assignRef x t b =>
    simp only [meant, makes]
    cases h : s.σ x with
    | none => simp
    | some a => simp [Abs.act_ub, replace_ub, still]
  | swap x y =>
    simp only [meant, makes]
    cases hx : s.σ x with
    | none => simp [hx]
    | some a =>
      cases hy : s.σ y with
      | none => simp; rintro rfl; simp [hy]
      | some b =>
        by_cases xy : x = y
        · subst xy
          simp only [if_true, Abs.act_ub, still, selfSwap_ub]
          constructor
          · rintro ⟨t, v, rfl, h⟩; exact .inl ⟨x, t, v, rfl, hx, h⟩
          · rintro (⟨x', t, v, e, e', h⟩ | ⟨t, h, _⟩)
            · cases e; rw [hx] at e'; cases e'; exact ⟨t, v, rfl, h⟩
            · cases h
        · simp only [xy, if_false, Abs.act_ub, still, swapContent_defined, false_iff]
          rintro (⟨x', t, v, e, h⟩ | ⟨t, h, _⟩)
          · cases e; exact xy rfl
          · cases h

theorem run_append (P : Prog) (as bs : List Cmd) (s : State) (h : (run P as s).1 = .ok ()) :
    run P (as ++ bs) s = run P bs (run P as s).2 := by
  induction as generalizing s with
  | nil => rfl
  | cons c as ih =>
    rw [List.cons_append]
    have step : ∀ cs, run P (c :: cs) s = match exec P c s with
      | (.ok _, s') => run P cs s'
      | (.threw, s') => run P cs s'
      | r => r := fun _ => rfl
    rw [step] at h
    rw [step, step]
    rcases he : exec P c s with ⟨o, s'⟩
    rw [he] at h
    cases o with
    | ok => exact ih s' h
    | threw => exact ih s' h
    | terminated => cases h
    | ub => cases h

theorem run_ub (P : Prog) (cs : List Cmd) (s : State) :
    (run P cs s).1 = .ub ↔ ∃ as c bs, cs = as ++ c :: bs ∧ (run P as s).1 = .ok () ∧ (exec P c (run P as s).2).1 = .ub := by
  constructor
  · intro h
    induction cs generalizing s with
    | nil => cases h
    | cons c cs ih =>
      unfold run at h
      rcases he : exec P c s with ⟨o, s'⟩
      rw [he] at h
      cases o with
      | ok =>
        obtain ⟨as, d, bs, e, h1, h2⟩ := ih s' h
        exact ⟨c :: as, d, bs, by rw [e]; rfl, by simp only [run, he]; exact h1, by simp only [run, he]; exact h2⟩
      | threw =>
        obtain ⟨as, d, bs, e, h1, h2⟩ := ih s' h
        exact ⟨c :: as, d, bs, by rw [e]; rfl, by simp only [run, he]; exact h1, by simp only [run, he]; exact h2⟩
      | terminated => cases h
      | ub => exact ⟨[], c, cs, rfl, rfl, by simp only [run, he]⟩
  · rintro ⟨as, c, bs, rfl, h1, h2⟩
    rw [run_append P as _ s h1]
    unfold run
    rcases he : exec P c (run P as s).2 with ⟨o, s'⟩
    rw [he] at h2
    cases o <;> simp_all

/-- Undefined behaviour happens exactly when some command swaps a variant with itself that keeps a non-trivial object
    inside, or makes an array of non-trivial objects (and memory for it was found). Nothing else is ever undefined. -/
theorem C36_undefined_iff (P : Prog) (cs : List Cmd) :
    (run P cs VMem.init).1 = .ub ↔ ∃ as c bs, cs = as ++ c :: bs ∧ (run P as VMem.init).1 = .ok () ∧
      Undefined P c ⟨view (run P as VMem.init).2, (run P as VMem.init).2.mem.nextBlock⟩ := by
  rw [run_ub]
  constructor
  · rintro ⟨as, c, bs, e, h1, h2⟩
    obtain ⟨g, h0⟩ := reach h1
    rw [(exec_exact g h0 c).out, meant_ub] at h2
    exact ⟨as, c, bs, e, h1, h2⟩
  · rintro ⟨as, c, bs, e, h1, h2⟩
    obtain ⟨g, h0⟩ := reach h1
    refine ⟨as, c, bs, e, h1, ?_⟩
    rw [(exec_exact g h0 c).out, meant_ub]
    exact h2

-- both kinds happen
example : Undefined sample (.swap 0 0) ⟨fun x => if x = 0 then some (.val 0 7) else none, 0⟩ ∧
    Undefined sample (.assignValue 0 3 7 true) ⟨fun x => if x = 0 then some .empty else none, 0⟩ ∧
    ¬Undefined sample (.swap 0 0) ⟨fun x => if x = 0 then some (.val 1 7) else none, 0⟩ :=
  ⟨.inl ⟨0, 0, 7, rfl, rfl, rfl, rfl⟩, .inr ⟨3, rfl, rfl, rfl, rfl⟩, by
    rintro (⟨x, t, v, e, h, hp, _⟩ | ⟨t, h, _⟩)
    · cases e; cases h; cases hp
    · cases h⟩

/-- Leaks, exactly: after any program, a block is in use if and only if a variant keeps it, or it was allocated by a
    command that then threw. -/
theorem C36_leak_iff (P : Prog) (cs : List Cmd) (h : (run P cs VMem.init).1 = .ok ()) (b : Nat) :
    InUse (run P cs VMem.init).2.mem.log b ↔
      (∃ x, VMem.Keeps (run P cs VMem.init).2 x b) ∨
      ∃ as c bs s', cs = as ++ c :: bs ∧ exec P c (run P as VMem.init).2 = (.threw, s') ∧
        InUse s'.mem.log b ∧ ¬InUse (run P as VMem.init).2.mem.log b := by
  obtain ⟨g, h0⟩ := reach h
  have hb := run_blk cs (L := fun _ => False) (Good.init P) LogInv.init rfl h (by simp [Blk, VMem.init])
  have li := LogInv.init.run P cs
  have dropped : ∀ (cs : List Cmd) (s : State), (run P cs s).1 = .ok () → (Dropped P cs s b ↔
      ∃ as c bs s', cs = as ++ c :: bs ∧ exec P c (run P as s).2 = (.threw, s') ∧
        InUse s'.mem.log b ∧ ¬InUse (run P as s).2.mem.log b) := by
    intro cs
    induction cs with
    | nil => intro s _; simp [Dropped]
    | cons c cs ih =>
      intro s h
      have go : (run P cs (exec P c s).2).1 = .ok () ∧ ∀ as, run P (c :: as) s = run P as (exec P c s).2 := by
        simp only [run] at h ⊢
        rcases he : exec P c s with ⟨o, s'⟩
        rw [he] at h
        cases o <;> first | cases h | exact ⟨h, fun _ => rfl⟩
      simp only [Dropped, ih _ go.1]
      constructor
      · rintro (⟨h1, h2, h3⟩ | ⟨as, d, bs, s', e, h1, h2, h3⟩)
        · exact ⟨[], c, cs, _, rfl, by rw [← h1]; rfl, h2, h3⟩
        · refine ⟨c :: as, d, bs, s', by rw [e]; rfl, ?_, h2, ?_⟩
          · rw [go.2]; exact h1
          · rw [go.2]; exact h3
      · rintro ⟨as, d, bs, s', e, h1, h2, h3⟩
        cases as with
        | nil =>
          cases e
          have h1 : exec P c s = (.threw, s') := h1
          exact .inl (by rw [h1]; exact ⟨rfl, h2, h3⟩)
        | cons a as =>
          cases e
          rw [go.2] at h1 h3
          exact .inr ⟨as, d, bs, s', rfl, h1, h2, h3⟩
  rw [← dropped cs _ h, ← li.blocks]
  constructor
  · intro hu
    obtain ⟨o, e⟩ := Option.isSome_iff_exists.1 hu
    cases o with
    | none => exact .inr (by simpa using (hb.1 b).1 e)
    | some id =>
      obtain ⟨k, t, hk⟩ := hb.2 b id e
      cases k with
      | none => rw [h0] at hk; cases hk
      | some x => exact .inl ⟨x, t, hk⟩
  · rintro (⟨x, hx⟩ | hd)
    · exact (li.blocks b).2 (C36_one_owner P cs h x x b hx).1
    · rw [(hb.1 b).2 (.inr hd)]; rfl

-- a program with a lost block and a kept one
example : (run sample [.value 0 2 13 true, .empty 1, .assign 1 0] VMem.init).1 = .ok () ∧
    InUse (run sample [.value 0 2 13 true, .empty 1, .assign 1 0] VMem.init).2.mem.log 0 ∧
    InUse (run sample [.value 0 2 13 true, .empty 1, .assign 1 0] VMem.init).2.mem.log 1 := by unfold InUse; decide

/-- Constructors and destructors, counted: the objects constructed are those destroyed, those in variants and one for
    every time an object was moved out of a variant's own storage. -/
theorem C37_balance (P : Prog) (cs : List Cmd) (h : (run P cs VMem.init).1 = .ok ()) (N : Nat)
    (hN : ∀ c ∈ cs, ∀ x ∈ c.names, x < N) :
    made (run P cs VMem.init).2.mem.log = ended (run P cs VMem.init).2.mem.log +
      objects (view (run P cs VMem.init).2) N + movesIn P cs ⟨fun _ => none, 0⟩ := by
  have := run_counts cs hN (Good.init P) rfl h
  have e0 : objects (view VMem.init) N = 0 := by
    clear this hN
    induction N with
    | zero => rfl
    | succ N ih => rw [objects, ih]; rfl
  have e1 : movesIn P cs (VMem.abs VMem.init) = movesIn P cs ⟨fun _ => none, 0⟩ := rfl
  rw [e0, e1] at this
  simp only [VMem.init, made, ended] at this ⊢
  omega

/-- When all variants are gone, every object was destroyed if and only if none was ever moved out of a variant's own
    storage. -/
theorem C37_destroyed_iff (P : Prog) (cs : List Cmd) (h : (run P cs VMem.init).1 = .ok ())
    (hg : ∀ x, view (run P cs VMem.init).2 x = none) :
    (∀ id t, ¬Alive (run P cs VMem.init).2.mem.log id t) ↔ movesIn P cs ⟨fun _ => none, 0⟩ = 0 := by
  have bound : ∀ l : List Nat, ∃ N, ∀ x ∈ l, x < N := by
    intro l
    induction l with
    | nil => exact ⟨0, by simp⟩
    | cons a l ih =>
      obtain ⟨N, hN⟩ := ih
      refine ⟨N + a + 1, ?_⟩
      intro x hx
      cases hx with
      | head => omega
      | tail _ hx => have := hN x hx; omega
  obtain ⟨N, hN⟩ := bound (cs.flatMap Cmd.names)
  have hb := C37_balance P cs h N (fun c hc x hx => hN x (List.mem_flatMap.2 ⟨c, hc, hx⟩))
  have e0 : objects (view (run P cs VMem.init).2) N = 0 := by
    clear hb hN
    induction N with
    | zero => rfl
    | succ N ih => simp [objects, ih, hg]
  obtain ⟨h1, h2, h3⟩ := survivors_spec (LogInv.init.run P cs).proper
  have : movesIn P cs ⟨fun _ => none, 0⟩ = (survivors (run P cs VMem.init).2.mem.log).length := by omega
  rw [this, List.length_eq_zero_iff, List.eq_nil_iff_forall_not_mem]
  constructor
  · rintro ha ⟨id, t⟩ hm; exact ha id t ((h2 id t).1 hm)
  · intro ha id t hm; exact ha (id, t) ((h2 id t).2 hm)

-- one swap of two small objects: five constructed, two destroyed, three moved from
example : movesIn sample [.value 0 0 7 false, .value 1 0 8 false, .swap 0 1, .destroy 0, .destroy 1] ⟨fun _ => none, 0⟩ = 3 := by decide
example : movesIn sample [.value 0 1 7 false, .value 1 1 8 false, .swap 0 1, .assign 0 1, .destroy 0, .destroy 1] ⟨fun _ => none, 0⟩ = 0 ∧
    (run sample [.value 0 1 7 false, .value 1 1 8 false, .swap 0 1, .assign 0 1, .destroy 0, .destroy 1] VMem.init).1 = .ok () := by decide

end Rtti.Props
