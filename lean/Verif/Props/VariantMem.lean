import Verif.Lemmas.VariantLog
import Verif.Lemmas.VariantExact
/-! C36-C39: memory and values of variants. -/
set_option autoImplicit false
namespace Rtti.VMem

theorem run_cases {P : Prog} (cs : List Cmd) (hc : ∀ c ∈ cs, c.plain = true) {s : State} (g : Good P s) (h0 : s.env none = none) :
    ((run P cs s).1 = .ok () ∧ Good P (run P cs s).2 ∧ (run P cs s).2.env none = none) ∨
    (¬Calm P ∧ (run P cs s).1 = .terminated) ∨ (¬PlainArrays P ∧ (run P cs s).1 = .ub) := by
  induction cs generalizing s with
  | nil => exact .inl ⟨rfl, g, h0⟩
  | cons c cs ih =>
    have hcs : ∀ c ∈ cs, c.plain = true := fun c h => hc c (.tail _ h)
    unfold run
    rcases exec_ends g h0 c (hc c (.head _)) with ⟨s', e, g', h0', -⟩ | ⟨m', e, hl, -⟩ | ⟨h, s', e⟩ | ⟨h, s', e⟩
    · rw [e]; exact ih hcs g' h0'
    · rw [e]; exact ih hcs (Inv.lost g hl) h0
    · rw [e]; exact .inr (.inl ⟨h, rfl⟩)
    · rw [e]; exact .inr (.inr ⟨h, rfl⟩)

theorem quiet_run {P : Prog} (cs : List Cmd) {s : State} (g : Good P s) (h0 : s.env none = none)
    (hq : Quiet P cs s) (hb : Blk (fun _ => False) s.env s.mem) :
    (run P cs s).1 = .ok () ∧ Blk (fun _ => False) (run P cs s).2.env (run P cs s).2.mem ∧
    (Faithful P → view (run P cs s).2 = cs.foldl (fun σ c => intended P c σ) (view s)) := by
  induction cs generalizing s with
  | nil => exact ⟨rfl, hb, fun _ => rfl⟩
  | cons c cs ih =>
    obtain ⟨hq1, hq2⟩ := hq
    unfold run
    rcases exec_exact g h0 c with ⟨s', e, g', h0', -⟩ | ⟨m', e, -⟩ | ⟨s', e, -⟩ | ⟨s', e, -⟩
    · rw [e] at hq2 ⊢
      obtain ⟨i1, i2, i3⟩ := ih g' h0' hq2 (exec_blk g h0 e hb)
      refine ⟨i1, i2, fun hf => ?_⟩
      rw [i3 hf, exec_intended g h0 e hf, List.foldl_cons]
    all_goals rw [e] at hq1; cases hq1

theorem still_plain (c : Cmd) (h : c.still = true) : c.plain = true := by
  cases c <;> simp_all [Cmd.still, Cmd.plain]

theorem hom_run {P : Prog} (cs : List Cmd) (hc : ∀ c ∈ cs, c.still = true) {s : State} (g : Good P s) (h0 : s.env none = none)
    (hh : Hom s.env s.mem) (h : (run P cs s).1 = .ok ()) : Hom (run P cs s).2.env (run P cs s).2.mem := by
  induction cs generalizing s with
  | nil => exact hh
  | cons c cs ih =>
    have hcs : ∀ c ∈ cs, c.still = true := fun c h => hc c (.tail _ h)
    have hs := hc c (.head _)
    unfold run at h ⊢
    have hom := exec_hom g hh c hs
    rcases exec_ends g h0 c (still_plain c hs) with ⟨s', e, g', h0', -⟩ | ⟨m', e, hl, -⟩ | ⟨_, s', e⟩ | ⟨_, s', e⟩
    · rw [e] at h hom ⊢
      rcases hom with ⟨s'', e' | e', hh'⟩ | ⟨_, e'⟩ | ⟨_, e'⟩ <;> cases e'
      exact ih hcs g' h0' hh' h
    · rw [e] at h hom ⊢
      rcases hom with ⟨s'', e' | e', hh'⟩ | ⟨_, e'⟩ | ⟨_, e'⟩ <;> cases e'
      exact ih hcs (Inv.lost g hl) h0 hh' h
    · rw [e] at h; cases h
    · rw [e] at h; cases h

end Rtti.VMem

namespace Rtti.Props
open Rtti.VMem

/-- every type of a program, for the examples: 0 an object in the buffer, 1 a large one, 2 a large one whose value 13
    cannot be copied, 3 an array of objects, 4 a large one that says copying does not throw, 5 an array of numbers -/
def sampleTypes : Nat → Ty
  | 0 => ⟨.small, true, true, false, false, false, some, fun v => some (v, 0)⟩
  | 1 => ⟨.big, true, true, false, false, false, some, fun v => some (v, 0)⟩
  | 2 => ⟨.big, true, true, false, false, false, fun v => if v = 13 then none else some v, fun v => some (v, 0)⟩
  | 3 => ⟨.array, true, true, false, false, false, some, fun v => some (v, 0)⟩
  | 4 => ⟨.big, true, true, true, true, false, some, fun v => some (v, 0)⟩
  | 5 => ⟨.array, true, true, true, true, true, some, fun v => some (v, v)⟩
  | _ => ⟨.small, true, true, true, true, true, some, fun v => some (v, v)⟩

def sample : Prog := ⟨sampleTypes, fun _ => false⟩
/-- the same with all memory used up -/
def sampleFull : Prog := ⟨sampleTypes, fun _ => true⟩
/-- the same without arrays of objects -/
def samplePlain : Prog := ⟨fun t => if t = 3 then sampleTypes 9 else sampleTypes t, fun _ => false⟩

/-- what variants do with memory is always in order: nothing is freed or destroyed twice or without having been
    allocated or constructed. For every program at all. -/
theorem C36_history_proper (P : Prog) (cs : List Cmd) : Proper (run P cs VMem.init).2.mem.log :=
  (LogInv.init.run P cs).proper

/-- No undefined behaviour, if no array of non-trivial objects is stored and no variant is swapped with itself. -/
theorem C36_defined_partial (P : Prog) (hp : PlainArrays P) (cs : List Cmd) (hc : ∀ c ∈ cs, c.plain = true) :
    (run P cs VMem.init).1 ≠ .ub := by
  rcases run_cases cs hc (Good.init P) rfl with ⟨h, _⟩ | ⟨_, h⟩ | ⟨h, _⟩
  · rw [h]; simp
  · rw [h]; simp
  · exact absurd hp h

/-- Every block kept by a variant is in use and is kept by no other variant; exceptions included. -/
theorem C36_one_owner (P : Prog) (cs : List Cmd)
    (h : (run P cs VMem.init).1 = .ok ()) (x y b : Nat) (hx : VMem.Keeps (run P cs VMem.init).2 x b) :
    InUse (run P cs VMem.init).2.mem.log b ∧ (VMem.Keeps (run P cs VMem.init).2 y b → x = y) := by
  obtain ⟨g, h0⟩ := reach h
  obtain ⟨t, ht⟩ := hx
  constructor
  · rw [← (LogInv.init.run P cs).blocks]
    by_cases hp : (P.ty t).place = .small
    · obtain ⟨id, v, e, _⟩ := Inv.small g _ t _ ht hp
      cases e
    · obtain ⟨b, id, v, e, hb, _⟩ := Inv.big g _ t _ ht hp
      cases e; rw [hb]; rfl
  · rintro ⟨t', ht'⟩
    simpa using Inv.ubl g _ _ _ _ _ ht ht'

/-- If nothing throws, every block in use is kept by a variant: no leak. -/
theorem C36_no_leak_partial (P : Prog) (cs : List Cmd) (hq : Quiet P cs VMem.init) (b : Nat) :
    InUse (run P cs VMem.init).2.mem.log b ↔ ∃ x, VMem.Keeps (run P cs VMem.init).2 x b := by
  obtain ⟨h, hb, -⟩ := quiet_run cs (Good.init P) rfl hq (by simp [Blk, VMem.init])
  constructor
  · intro hu
    rw [← (LogInv.init.run P cs).blocks] at hu
    obtain ⟨c, e⟩ := Option.isSome_iff_exists.1 hu
    have ec : ∃ id, c = some id := by
      cases c with
      | none => exact absurd e (fun e => (hb.1 b).1 e)
      | some id => exact ⟨id, rfl⟩
    obtain ⟨id, rfl⟩ := ec
    obtain ⟨k, t, hk⟩ := hb.2 b id e
    obtain ⟨g, h0⟩ := reach h
    cases k with
    | none => rw [h0] at hk; cases hk
    | some x => exact ⟨x, t, hk⟩
  · rintro ⟨x, hx⟩
    exact (C36_one_owner P cs h x x b hx).1

/-- If nothing throws, nothing is in use when all variants are gone. -/
theorem C36_all_freed_partial (P : Prog) (cs : List Cmd) (hq : Quiet P cs VMem.init)
    (hg : ∀ x, view (run P cs VMem.init).2 x = none) (b : Nat) : ¬InUse (run P cs VMem.init).2.mem.log b := by
  rw [C36_no_leak_partial P cs hq]
  rintro ⟨x, t, hx⟩
  obtain ⟨h, -⟩ := quiet_run cs (Good.init P) rfl hq (by simp [Blk, VMem.init])
  have := (reach h).1.live (some x)
  rw [see_some, hg x, hx] at this
  cases this

/-- Storing an array of non-trivial objects is undefined: elements are assigned to that were never constructed. -/
theorem C36_array_of_objects_false : (run sample [.value 0 3 7 false] VMem.init).1 = .ub := by decide

/-- Moving a large variant reads the destination's storage before anything was written to it. -/
theorem C36_reads_raw_storage_false : (run sample [.value 0 1 7 false, .move 1 0] VMem.init).2.mem.odd = true := by decide

example : PlainArrays samplePlain := by
  intro t
  unfold samplePlain
  dsimp only
  split
  · decide
  · unfold sampleTypes; split <;> simp_all

-- a program with everything in it
def tour : List Cmd :=
  [.value 0 1 7 false, .value 1 0 5 true, .copy 2 0, .move 3 0, .assign 1 2, .assignMove 2 1, .swap 2 3, .empty 4,
   .assignValue 4 2 8 true, .ref 5 1 99, .assign 4 5, .assign 2 2, .swap 4 2, .clear 3]

example : Quiet sample tour VMem.init := by
  simp only [Quiet, tour]
  decide
example : view (run sample tour VMem.init).2 4 = some (.val 1 7) ∧ view (run sample tour VMem.init).2 2 = some (.ref 1 99) ∧
    VMem.Keeps (run sample tour VMem.init).2 4 0 := ⟨by decide, by decide, 1, by decide⟩

/-! ### C37 -/

/-- Every constructed object is destroyed at most once, and none is destroyed that was not constructed. -/
theorem C37_at_most_once (P : Prog) (cs : List Cmd) (l l' : List Ev) (id t : Nat)
    (h : (run P cs VMem.init).2.mem.log = l ++ .dtor id t :: l') : .ctor id t ∈ l' ∧ .dtor id t ∉ l' ∧ .dtor id t ∉ l := by
  have hp := (LogInv.init.run P cs).proper
  rw [h] at hp
  clear h
  have key : ∀ l, Proper (l ++ .dtor id t :: l') → Proper (.dtor id t :: l') ∧ .dtor id t ∉ l := by
    intro l
    induction l with
    | nil => intro h; exact ⟨h, by simp⟩
    | cons e l ih =>
      intro h
      have h' : Proper (l ++ .dtor id t :: l') ∧ e ≠ .dtor id t := by
        cases e <;> simp only [List.cons_append, Proper, ne_eq, reduceCtorEq, not_false_eq_true, Ev.dtor.injEq] at h ⊢
        · exact ⟨h.2, trivial⟩
        · refine ⟨h.2.2, ?_⟩
          rintro ⟨rfl, rfl⟩
          exact h.2.1 (by simp)
        · exact ⟨h.2, trivial⟩
        · exact ⟨h.2.2, trivial⟩
      refine ⟨(ih h'.1).1, ?_⟩
      simp only [List.mem_cons, not_or]
      exact ⟨fun e' => h'.2 e'.symm, (ih h'.1).2⟩
  obtain ⟨h1, h2⟩ := key l hp
  exact ⟨h1.1, h1.2.1, h2⟩

/-- Objects kept on the heap are destroyed: one that is alive is the object of a live variant. Exceptions included. -/
theorem C37_heap_objects (P : Prog) (cs : List Cmd)
    (h : (run P cs VMem.init).1 = .ok ()) (id t : Nat) (ht : (P.ty t).place ≠ .small)
    (ha : Alive (run P cs VMem.init).2.mem.log id t) :
    ∃ x v, view (run P cs VMem.init).2 x = some (.val t v) := by
  obtain ⟨g, h0⟩ := reach h
  obtain ⟨v, ho⟩ := ((LogInv.init.run P cs).objs id t).2 ha
  obtain ⟨k, b, hk, hb⟩ := Inv.home g id t v ho ht
  cases k with
  | none => rw [h0] at hk; cases hk
  | some x => exact ⟨x, v, by simp [view, hk, content, hb, ho]⟩

/-- Programs that only create, copy, clear and destroy variants destroy every object: one that is alive is in a live
    variant. (What is missing: moving, assigning and swapping objects kept in the buffer.) -/
theorem C37_without_moves_partial (P : Prog) (cs : List Cmd) (hc : ∀ c ∈ cs, c.still = true)
    (h : (run P cs VMem.init).1 = .ok ()) (hg : ∀ x, view (run P cs VMem.init).2 x = none) (id t : Nat) :
    ¬Alive (run P cs VMem.init).2.mem.log id t := by
  intro ha
  obtain ⟨g, h0⟩ := reach h
  obtain ⟨v, ho⟩ := ((LogInv.init.run P cs).objs id t).2 ha
  obtain ⟨k, t', hk⟩ := hom_run cs hc (Good.init P) rfl (by simp [Hom, VMem.init]) h id _ ho
  have hs : (run P cs VMem.init).2.env k = none := by
    cases k with
    | none => exact h0
    | some x =>
      have := g.live (some x)
      rw [see_some, hg x] at this
      cases e : (run P cs VMem.init).2.env (some x) with
      | none => rfl
      | some v => rw [e] at this; cases this
  rcases hk with hk | ⟨b, hk, _⟩ <;> rw [hs] at hk <;> cases hk

/-- C37 is false: an object kept in the buffer that was moved from is never destroyed. Here two objects are
    constructed and only one destroyed although both variants are gone. -/
theorem C37_moved_from_false :
    (∀ x ∈ [0, 1], view (run sample [.value 0 0 7 false, .move 1 0, .destroy 0, .destroy 1] VMem.init).2 x = none) ∧
    (run sample [.value 0 0 7 false, .move 1 0, .destroy 0, .destroy 1] VMem.init).2.mem.log =
      [.dtor 1 0, .ctor 1 0, .ctor 0 0] := by decide

/-- A swap leaves three. -/
theorem C37_swap_false :
    (run sample [.value 0 0 7 false, .value 1 0 8 false, .swap 0 1, .destroy 0, .destroy 1] VMem.init).2.mem.log =
      [.dtor 4 0, .dtor 3 0, .ctor 4 0, .ctor 3 0, .ctor 2 0, .ctor 1 0, .ctor 0 0] := by decide

-- the hypotheses of C37_heap_objects and C37_without_moves_partial can be met
example : Alive (run sample tour VMem.init).2.mem.log 0 1 ∧ (sample.ty 1).place ≠ .small := by unfold Alive; decide
example : (run sample [.value 0 0 7 false, .copy 1 0, .clear 0, .destroy 0, .destroy 1] VMem.init).1 = .ok () := by decide

/-! ### C38 -/

/-- Refinement: variants behave as plain values. After any program in which nothing throws, every variant contains what
    the same program on plain values gives. -/
theorem C38_refines_values_partial (P : Prog) (hf : Faithful P) (cs : List Cmd)
    (hq : Quiet P cs VMem.init) :
    view (run P cs VMem.init).2 = cs.foldl (fun σ c => intended P c σ) (fun _ => none) :=
  (quiet_run cs (Good.init P) rfl hq (by simp [Blk, VMem.init])).2.2 hf

/-- Each command that succeeds does exactly what is intended, in every reachable state, whatever was thrown before. -/
theorem C38_command_partial (P : Prog) (hf : Faithful P) (cs : List Cmd) (c : Cmd)
    (h : (run P cs VMem.init).1 = .ok ()) (s' : State) (he : exec P c (run P cs VMem.init).2 = (.ok (), s')) :
    view s' = intended P c (view (run P cs VMem.init).2) := by
  obtain ⟨g, h0⟩ := reach h
  exact exec_intended g h0 he hf

/-- Nothing terminates the program if no in-place move throws and memory suffices. -/
theorem C38_no_termination_partial (P : Prog) (h : Calm P) (cs : List Cmd) : (run P cs VMem.init).1 ≠ .terminated := by
  have key : ∀ (cs : List Cmd) (s : State), Good P s → s.env none = none → (run P cs s).1 ≠ .terminated := by
    intro cs
    induction cs with
    | nil => intro s _ _; simp [run]
    | cons c cs ih =>
      intro s g h0
      unfold run
      rcases exec_exact g h0 c with ⟨s', e, g', h', -⟩ | ⟨m', e, -, hl⟩ | ⟨s', e, -⟩ | ⟨s', e, -⟩
      · rw [e]; exact ih _ g' h'
      · rw [e]; exact ih ⟨s.env, m'⟩ (Inv.lost g hl) h0
      · exact absurd (by rw [e]) (exec_terminated g h0 (c := c) h)
      · rw [e]; simp
  exact key cs _ (Good.init P) rfl

example : Calm ⟨fun t => sampleTypes (if t = 1 then 1 else 0), fun _ => false⟩ := by
  refine ⟨fun t v => ?_, fun t v => ?_, fun t v => ?_, fun _ => rfl⟩ <;> dsimp only <;> split <;> simp [sampleTypes]

/-- `x = x` and `x = std::move(x)` do nothing at all. -/
theorem C38_self_assignment (P : Prog) (s : State) (x : Nat) :
    exec P (.assign x x) s = (.ok (), s) ∧ exec P (.assignMove x x) s = (.ok (), s) := by
  simp [exec]

/-- What the intended effects say: copies equal their source and leave it; a moved-from variant is empty; swapping
    twice changes nothing; nothing else changes. -/
theorem C38_intended (P : Prog) (σ : View) (x y z : Nat) (cx cy : Content) (hx : σ x = some cx) (hy : σ y = some cy)
    (xy : x ≠ y) (zx : z ≠ x) (zy : z ≠ y) :
    (intended P (.assign x y) σ x = some cy ∧ intended P (.assign x y) σ y = some cy ∧ intended P (.assign x y) σ z = σ z) ∧
    (intended P (.assignMove x y) σ x = some cy ∧ intended P (.assignMove x y) σ y = some .empty ∧
      intended P (.assignMove x y) σ z = σ z) ∧
    (intended P (.swap x y) σ x = some cy ∧ intended P (.swap x y) σ y = some cx ∧ intended P (.swap x y) σ z = σ z ∧
      intended P (.swap x y) (intended P (.swap x y) σ) = σ) ∧
    (intended P (.clear x) σ x = some .empty ∧ intended P (.clear x) σ z = σ z) := by
  have hn : ∀ τ : View, τ = intended P (.swap x y) σ → τ x = some cy ∧ τ y = some cx ∧ ∀ w, w ≠ x → w ≠ y → τ w = σ w := by
    rintro τ rfl
    simp [intended, upd, hx, hy, xy]
    intro w h1 h2; simp [h1, h2]
  obtain ⟨h1, h2, h3⟩ := hn _ rfl
  refine ⟨by simp [intended, upd, hx, hy, Ne.symm xy, zx], by simp [intended, upd, hx, hy, xy, zx, zy],
    ⟨h1, h2, h3 z zx zy, ?_⟩, by simp [intended, upd, hx, zx]⟩
  funext w
  generalize hτ : intended P (.swap x y) σ = τ at h1 h2 h3 ⊢
  by_cases hw : w = y
  · subst hw; simp [intended, upd, h1, h2, hy]
  · by_cases hw' : w = x
    · subst hw'; simp [intended, upd, h1, h2, hx, hw]
    · simp [intended, upd, h1, h2, hw, hw', h3 w hw' hw]

/-- Swapping a variant with itself constructs the object in the buffer from itself. -/
theorem C38_self_swap_false : (run sample [.value 0 0 7 false, .swap 0 0] VMem.init).1 = .ub := by decide

example : Faithful sample := by
  intro t v
  have : ∀ t, (∀ v', (sampleTypes t).copy v = some v' → v' = v) ∧ (∀ v' r, (sampleTypes t).move v = some (v', r) → v' = v) := by
    intro t
    unfold sampleTypes
    split <;> (constructor <;> intro v' <;> simp <;> (try split) <;> simp_all)
  exact this t

/-! ### C39 -/

/-- A command that throws leaves all variants and all objects as they were; at most one block is lost, and none if
    everything is kept in the buffer. -/
theorem C39_nothing_changes_partial (P : Prog) (cs : List Cmd) (c : Cmd)
    (h : (run P cs VMem.init).1 = .ok ()) (s' : State) (he : exec P c (run P cs VMem.init).2 = (.threw, s')) :
    s'.env = (run P cs VMem.init).2.env ∧ view s' = view (run P cs VMem.init).2 ∧
    (∀ id t, Alive s'.mem.log id t ↔ Alive (run P cs VMem.init).2.mem.log id t) ∧
    (∃ b0, ∀ b, b ≠ b0 → (InUse s'.mem.log b ↔ InUse (run P cs VMem.init).2.mem.log b)) ∧
    ((∀ t, (P.ty t).place = .small) → s' = (run P cs VMem.init).2) := by
  obtain ⟨g, h0⟩ := reach h
  obtain ⟨he, hl, hs⟩ := exec_threw g h0 he
  refine ⟨he, ?_, ?_, ?_, hs⟩
  · have := view_lost g hl
    rw [← he] at this
    exact this
  · intro id t
    generalize s'.mem = m' at hl
    cases hl with
    | nothing => rfl
    | tried => rfl
    | block => simp [Mem.alloc, Alive]
  · generalize s'.mem = m' at hl
    cases hl with
    | nothing => exact ⟨0, fun _ _ => Iff.rfl⟩
    | tried => exact ⟨0, fun _ _ => Iff.rfl⟩
    | block =>
      refine ⟨(run P cs VMem.init).2.mem.nextBlock, fun b hb => ?_⟩
      simp [Mem.alloc, InUse, hb]

/-- C39 is false: when copying a large object throws, the block allocated for it is lost. -/
theorem C39_block_lost_false :
    (exec sample (.assign 1 0) (run sample [.value 0 2 13 true, .empty 1] VMem.init).2).1 = .threw ∧
    InUse (exec sample (.assign 1 0) (run sample [.value 0 2 13 true, .empty 1] VMem.init).2).2.mem.log 1 ∧
    (∀ x ∈ [0, 1], ¬VMem.Keeps (exec sample (.assign 1 0) (run sample [.value 0 2 13 true, .empty 1] VMem.init).2).2 x 1) := by
  refine ⟨by decide, by unfold InUse; decide, ?_⟩
  intro x hx
  simp only [List.mem_cons, List.not_mem_nil, or_false] at hx
  rcases hx with rfl | rfl
  · rintro ⟨t, ht⟩
    have : (exec sample (.assign 1 0) (run sample [.value 0 2 13 true, .empty 1] VMem.init).2).2.env (some 0) = some ⟨.own 2, .block 0⟩ := by decide
    rw [this] at ht; simp at ht
  · rintro ⟨t, ht⟩
    have : (exec sample (.assign 1 0) (run sample [.value 0 2 13 true, .empty 1] VMem.init).2).2.env (some 1) = some ⟨.void, .raw⟩ := by decide
    rw [this] at ht; simp at ht

/-- C39 is false: if memory runs out while copying a large type whose copy constructor does not throw, the program is
    terminated instead. -/
theorem C39_out_of_memory_terminates_false : (run sampleFull [.value 0 4 7 false] VMem.init).1 = .terminated := by decide

end Rtti.Props
