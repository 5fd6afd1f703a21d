import Verif.Lemmas.ConstructHist
/-
C57: type-erased construct/destruct pairs balance.
-/
set_option autoImplicit false
namespace Rtti.Props
open Rtti Mk

/-- C57: a successful `construct` gives a fresh block of the heap with new objects, default, copied or moved; the
    source keeps its objects (what remains of the values after a move); nothing else changes. (`Made` says "raw memory"
    for trivially default constructible types, see `C57_uninitialised_false`.) -/
theorem C57_construct {P : Prog} (hwf : P.WF) {m : Mem} {h l : List Nat} (hh : Hist P m h l) {t : Nat} {src : Option Nat}
    {vals : Option (List Nat)} {mv : Bool} (hl : LegalSource P m t src) (hv : SourceVals m src vals) {r : Option Nat} {m' : Mem}
    (e : construct P (.type t) src mv m = (.ok r, m')) :
    r = some m.nextBlock ∧ Made P t mv src vals m m' := by
  have key := construct_post hwf (hh.inv hwf).inv mv hl hv
  rw [e] at key
  exact ⟨key.1, key.2.1⟩

/-- C57: `destruct` of a pointer the program holds always succeeds; it releases that block and touches no other; the
    destructor of each object in it, if it has one, has then been called exactly once. -/
theorem C57_destruct {P : Prog} (hwf : P.WF) {m : Mem} {h l : List Nat} (hh : Hist P m h l) {b : Nat} (hb : b ∈ h) :
    ∃ k m', m.blocks b = some k ∧ destruct P (.type k.ty) (some b) m = (.ok (), m') ∧ m'.blocks b = none ∧
      (∀ b', b' ≠ b → m'.blocks b' = m.blocks b') ∧
      ∀ id i, At m id b i → ¬ Alive m' id ∧ ((P.ty k.ty).trivDtor = false → m'.log.count (.dtor id) = 1) := by
  have hi := hh.inv hwf
  obtain ⟨k, hk, hw⟩ := hi.whole b hb
  obtain ⟨m', e, hi', hn, ho, _, hg⟩ := destruct_post hi.inv hk hw
  refine ⟨k, m', hk, e, hn, ho, fun id i hat => ?_⟩
  have hdead : ¬ Alive m' id := by
    rintro ⟨b', i', k', v', h1, h2⟩
    by_cases hb' : b' = b
    · subst hb'; rw [hn] at h1; simp at h1
    · rw [ho b' hb'] at h1
      exact hb' (hi.inv.at_unique id b i b' i' hat ⟨k', v', h1, h2⟩).1.symm
  refine ⟨hdead, fun htr => ?_⟩
  obtain ⟨k', v, h1, h2⟩ := hat
  rw [hk] at h1
  cases h1
  have hc := hi.inv.at_ctor b k i id v hk h2
  rcases hi'.dead id k.ty (hg _ hc) with h3 | h3 | ⟨_, h3⟩
  · exact absurd h3 hdead
  · exact h3
  · rw [htr] at h3; simp at h3

/-- C57: memory can be given back exactly if it is a block of the heap; the storage of the program's own objects, or a block given back
    before, cannot. -/
theorem C57_deallocate (P : Prog) (m : Mem) (b t : Nat) :
    (OnHeap m b → ∃ m', deallocate P b (.type t) m = (.ok (), m') ∧ m'.blocks b = none ∧ ∀ b', b' ≠ b → m'.blocks b' = m.blocks b') ∧
    (¬OnHeap m b → (deallocate P b (.type t) m).1 = .ub) := by
  cases e : m.blocks b with
  | none => simp [deallocate, tableDeallocate, OnHeap, e]
  | some k =>
    cases h : k.heap with
    | true => 
      refine ⟨fun _ => ⟨{ m with blocks := upd m.blocks b none, log := lostIn (P.ty k.ty).trivDtor k.slots ++ m.log },
        by simp [deallocate, tableDeallocate, e, h], by simp [upd], fun b' hb => by simp [upd, hb]⟩, fun n => absurd ⟨k, e, h⟩ n⟩
    | false =>
      refine ⟨fun ⟨k', e', h'⟩ => ?_, fun _ => by simp [deallocate, tableDeallocate, e, h]⟩
      rw [e] at e'; cases e'; rw [h] at h'; cases h'

/-- C57: after any history the blocks on the heap are exactly those the program holds and those that calls of
    `construct` which ended with an exception left behind, without repetition. -/
theorem C57_blocks {P : Prog} (hwf : P.WF) {m : Mem} {h l : List Nat} (hh : Hist P m h l) :
    (∀ b, OnHeap m b ↔ b ∈ h ∨ b ∈ l) ∧ (h ++ l).Nodup := ⟨(hh.inv hwf).heap, (hh.inv hwf).nodup⟩

/-- C57 (partial): if no constructor threw or was missing, the heap is empty once every pointer has been given back.
    What is missing: `C57_leak_false`. -/
theorem C57_no_leak_partial {P : Prog} (hwf : P.WF) {m : Mem} (hh : Hist P m [] []) (b : Nat) : ¬ OnHeap m b := by
  rw [(C57_blocks hwf hh).1]
  simp

/-- C57: in every history every object is constructed once and destroyed at most once; it is destroyed exactly when it
    is no longer alive (trivial destructors are not called); no object that needs a destructor call loses its memory
    without. -/
theorem C57_objects {P : Prog} (hwf : P.WF) {m : Mem} {h l : List Nat} (hh : Hist P m h l) (id : Nat) :
    Ev.lost id ∉ m.log ∧ (Ev.dtor id ∈ m.log → ∃ t, Ev.ctor id t ∈ m.log) ∧
    ∀ t, Ev.ctor id t ∈ m.log → m.log.count (.ctor id t) = 1 ∧ (∀ t', Ev.ctor id t' ∈ m.log → t' = t) ∧
      (Alive m id → m.log.count (.dtor id) = 0) ∧
      (¬ Alive m id → (P.ty t).trivDtor = false → m.log.count (.dtor id) = 1) ∧ m.log.count (.dtor id) ≤ 1 := by
  have hi := (hh.inv hwf).inv
  refine ⟨hi.lost id, hi.dtor_ctor id, fun t ht => ⟨?_, fun t' ht' => hi.ctor_type id t' t ht' ht, hi.at_dtor id, fun hna htr => ?_, ?_⟩⟩
  · have h1 := hi.ctor_one id t
    have h2 := List.count_pos_iff.2 ht
    omega
  · rcases hi.dead id t ht with h1 | h1 | h1
    · exact absurd h1 hna
    · exact h1
    · rw [htr] at h1; simp at h1
  · rcases hi.dead id t ht with h1 | h1 | h1
    · rw [hi.at_dtor id h1]; omega
    · omega
    · omega

/-- C57: an exception changes nothing but the block it leaves behind (if there was memory): a single object leaves raw
    memory; the objects that exist otherwise are untouched. -/
theorem C57_exception {P : Prog} (hwf : P.WF) {m : Mem} {h l : List Nat} (hh : Hist P m h l) {t : Nat} {src : Option Nat}
    {mv : Bool} (hl : LegalSource P m t src) {m' : Mem} (e : construct P (.type t) src mv m = (.threw, m')) :
    (∀ b, b ≠ m.nextBlock → m'.blocks b = m.blocks b) ∧
    (P.oom m.news = true → m'.blocks = m.blocks) ∧
    (P.oom m.news = false → ∃ ss, m'.blocks m.nextBlock = some ⟨t, true, ss⟩ ∧
      ((P.ty t).array = false → ss = List.replicate (P.ty t).count .raw)) := by
  obtain ⟨vals, hv, _⟩ := hl.vals
  have key := construct_post hwf (hh.inv hwf).inv mv hl hv
  rw [e] at key
  obtain ⟨_, ho, hc⟩ := key
  refine ⟨ho, fun h1 => ?_, fun h1 => ?_⟩
  · rcases hc with ⟨_, _, h2⟩ | ⟨h2, _⟩
    · exact h2
    · rw [h1] at h2; simp at h2
  · rcases hc with ⟨h2, _⟩ | ⟨_, _, h2⟩
    · rw [h1] at h2; simp at h2
    · exact h2

/-- C57: `construct` from a legal source is undefined only for over-aligned types and for copies of arrays whose
    elements do not have trivial assignment, and terminates only if a constructor declared `noexcept` throws. -/
theorem C57_defined {P : Prog} (hwf : P.WF) (hon : P.Honest) {m : Mem} {h l : List Nat} (hh : Hist P m h l) {t : Nat}
    {src : Option Nat} (mv : Bool) (hl : LegalSource P m t src) (ha : (P.ty t).overAligned = false)
    (hc : src = none ∨ (P.ty t).array = false ∨ (P.ty t).trivAssign = true) :
    (construct P (.type t) src mv m).1 ≠ .ub ∧ (construct P (.type t) src mv m).1 ≠ .terminated := by
  obtain ⟨vals, hv, _⟩ := hl.vals
  have key := construct_post hwf (hh.inv hwf).inv mv hl hv
  generalize construct P (.type t) src mv m = r at key
  obtain ⟨r, m'⟩ := r
  cases r with
  | ok => simp
  | threw => simp
  | terminated => exact absurd hon key
  | ub =>
    rcases key with key | ⟨h1, h2, h3⟩
    · rw [ha] at key; simp at key
    · rcases hc with hc | hc | hc
      · exact absurd hc h1
      · rw [hc] at h2; simp at h2
      · rw [hc] at h3; simp at h3

/-- C57: an invalid `MetaType` (null `m_typeInfo`) constructs nothing and gives null; null is destructed without effect. -/
theorem C57_null (P : Prog) (src : Option Nat) (mv : Bool) (mt : MT) (m : Mem) :
    construct P .invalid src mv m = (.ok none, m) ∧ destruct P mt none m = (.ok (), m) := by
  refine ⟨?_, rfl⟩
  cases src <;> cases mv <;> rfl

/-! The types of the examples: 0 is `int`, 1 a class with everything, 2 an array of three of it, 3 a class that is not
default constructible. -/
namespace ExM
def int_ : CTy := ⟨false, 1, false, fun _ => true, fun _ => true, true, true, true, 0, id, fun v => (v, v)⟩
def cls : CTy := ⟨false, 1, false, fun _ => true, fun _ => false, false, false, false, 5, id, fun v => (v, 0)⟩
def prog (throws : Nat → Bool) : Prog :=
  ⟨fun t => if t = 0 then int_ else if t = 1 then cls else if t = 2 then { cls with array := true, count := 3 }
    else { cls with able := fun k => k != .dflt }, fun _ => false, fun _ t n => t != 0 && throws n⟩
theorem wf (f : Nat → Bool) : (prog f).WF := by
  constructor
  · intro t; simp only [prog]; repeat' split
    all_goals simp [int_, cls]
  · intro t; simp only [prog]; repeat' split
    all_goals simp [int_, cls]
  · intro k t; simp only [prog]; repeat' split
    all_goals simp [int_, cls]
theorem honest (f : Nat → Bool) : (prog f).Honest := by
  intro k t n
  simp only [prog]; repeat' split
  all_goals simp_all [int_, cls]
/-- `construct` in an empty memory -/
def first (f : Nat → Bool) (t : Nat) : VMem.Out (Option Nat) × Mem := construct (prog f) (.type t) none false Mem.init
end ExM

/- a history: construct, move construct from it, give the first back -/
example : ∃ m, Hist (ExM.prog fun _ => false) m [1] [] ∧ m.blocks 0 = none ∧ m.blocks 1 = some ⟨1, true, [.obj 1 5]⟩ ∧
    m.log = [.dtor 0, .ctor 1 1, .ctor 0 1] := by
  refine ⟨_, .gone (m' := _) (b := 0) (h := [1, 0]) (k := ⟨1, true, [.obj 0 0]⟩)
    (.made (t := 1) (src := some 0) (mv := true) (b := 1) (.made (t := 1) (src := none) (mv := false) (b := 0) .start trivial rfl) ?_ rfl)
    (by decide) rfl rfl, rfl, rfl, rfl⟩
  exact ⟨_, rfl, rfl, rfl, fun i hi => by
    have : i < 1 := hi
    have : i = 0 := by omega
    subst this; exact ⟨0, 5, rfl⟩⟩

/-- C57 is false as stated: when a constructor throws, or is missing, the block is leaked: nobody holds a pointer to
    it. -/
theorem C57_leak_false :
    (∃ P : Prog, P.WF ∧ P.Honest ∧ ∃ m b, Hist P m [] [b] ∧ OnHeap m b ∧ (P.ty 1).able .dflt = true) ∧
    (∃ P : Prog, P.WF ∧ P.Honest ∧ (∀ k t n, P.throws k t n = false) ∧ ∃ m b, Hist P m [] [b] ∧ OnHeap m b) := by
  refine ⟨⟨ExM.prog fun _ => true, ExM.wf _, ExM.honest _, (ExM.first (fun _ => true) 1).2, 0, ?_, ⟨_, rfl, rfl⟩, rfl⟩,
    ⟨ExM.prog fun _ => false, ExM.wf _, ExM.honest _, by simp [ExM.prog], (ExM.first (fun _ => false) 3).2, 0, ?_, ⟨_, rfl, rfl⟩⟩⟩
  · exact .failed (t := 1) (src := none) (mv := false) .start trivial rfl
  · exact .failed (t := 3) (src := none) (mv := false) .start trivial rfl

/-- C57 is false as stated: when the second element of an array throws in its default constructor, the first one has
    been constructed and will never be destroyed. -/
theorem C57_array_leak_false :
    ∃ P : Prog, P.WF ∧ P.Honest ∧ ∃ m, Hist P m [] [0] ∧ Alive m 0 ∧ m.log = [.ctor 0 2] := by
  refine ⟨ExM.prog fun n => n = 1, ExM.wf _, ExM.honest _, (ExM.first (fun n => n = 1) 2).2, ?_, ⟨0, 0, _, 5, rfl, rfl⟩, rfl⟩
  exact .failed (t := 2) (src := none) (mv := false) .start trivial rfl

/-- C57 is false as stated: `construct()` of a trivially default constructible type gives uninitialised memory
    (`new (p) T()`, which the other types get, would be zero). -/
theorem C57_uninitialised_false :
    ∃ m, (ExM.first (fun _ => false) 0) = (.ok (some 0), m) ∧ m.blocks 0 = some ⟨0, true, [.raw]⟩ := ⟨_, rfl, rfl⟩

/-- C57 is false as stated: copying an array whose elements have a non-trivial assignment assigns to objects that do
    not exist. -/
theorem C57_array_copy_false :
    ∃ m, Hist (ExM.prog fun _ => false) m [0] [] ∧ LegalSource (ExM.prog fun _ => false) m 2 (some 0) ∧
      (construct (ExM.prog fun _ => false) (.type 2) (some 0) false m).1 = .ub := by
  refine ⟨(ExM.first (fun _ => false) 2).2, .made (t := 2) (src := none) (mv := false) .start trivial rfl,
    ⟨_, rfl, rfl, rfl, ?_⟩, rfl⟩
  intro i hi
  have : i = 0 ∨ i = 1 ∨ i = 2 := by
    have : i < 3 := hi
    omega
  rcases this with rfl | rfl | rfl <;> exact ⟨_, _, rfl⟩

/-- `destruct` with an invalid `MetaType` leaks, `construct` with the one of `void` dereferences a null table. -/
theorem C57_handles_false (P : Prog) (b : Nat) (m : Mem) :
    destruct P .invalid (some b) m = (.ok (), m) ∧ (construct P .void none false m).1 = .ub := ⟨rfl, rfl⟩

/-- The `MetaType` of `void` has no function table, and every function but `destruct(nullptr)` looks into it. -/
theorem C57_void_false (P : Prog) (src : Option Nat) (mv : Bool) (s b : Nat) (w : Option Nat) (m : Mem) :
    (construct P .void src mv m).1 = .ub ∧ (destruct P .void (some b) m).1 = .ub ∧ (allocate P .void m).1 = .ub ∧
    (deallocate P b .void m).1 = .ub ∧ (destroy P b .void m).1 = .ub ∧ (defaultConstruct P w .void m).1 = .ub ∧
    (copyConstruct P s w .void m).1 = .ub ∧ (moveOrCopy P s w .void m).1 = .ub := ⟨rfl, rfl, rfl, rfl, rfl, rfl, rfl, rfl⟩

end Rtti.Props
