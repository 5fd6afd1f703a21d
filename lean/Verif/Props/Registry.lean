import Verif.Lemmas.Converters
import Verif.Model.Convert
import Verif.Props.Types
import Verif.Examples.Naming
/-
C01, C02, C03 (ids), C04, C11, C12, C13: the type registry and the converter registry.
-/
set_option autoImplicit false
namespace Rtti.Props
open Spec Reg

namespace Ex
def d1 : Desc := ⟨4, 0, 0, 128⟩
def d2 : Desc := ⟨8, 1, 0, 2⟩
def vi : RType := ⟨.none, int⟩
def vci : RType := ⟨.lref, cint⟩
def vX : RType := ⟨.none, X⟩
def voidB : Base := ⟨9, .void, 0, intB.traits⟩
end Ex

/-- the hypotheses on the naming of types can be met -/
example : ∃ nm : RType → Str, Function.Injective nm ∧ ∀ T, nm T ≠ [] :=
  ⟨Rtti.Ex.rname, Rtti.Ex.rname_injective, Rtti.Ex.rname_ne⟩

/-! ### C01, C02 -/

/-- C01 and C02: in every history of registrations, look-ups and observations there is one assignment `f`
    of ids to names, injective and non-zero on registered names, that explains every answer:
    registering gives `f name`; looking up gives `f name` if the name was registered before and the invalid
    id otherwise; observing `f name` always shows the first description. -/
theorem C01_answers (nm : RType → Str) (ops : List RegOp) (hc : ∀ op ∈ ops, TypeCall op) (r : Reg)
    (outs : List RegOut) (e : Reg.init.run nm ops = .val (r, outs)) :
    ∃ f : Str → TypeId,
      (∀ n, n ≠ [] → (firstReg ops n).isSome → f n ≠ 0) ∧
      (∀ n m, n ≠ [] → m ≠ [] → (firstReg ops n).isSome → (firstReg ops m).isSome → f n = f m → n = m) ∧
      ∀ i (hi : i < ops.length) (ho : i < outs.length), TypeAnswer f (ops.take i) ops[i] outs[i] := by
  have t := typeCalls_ok ops hc e
  have some_of : ∀ n, n ≠ [] → (firstReg ops n).isSome → ∃ k, r.names n = some k := by
    intro n hn hf
    cases hk : r.names n with
    | some k => exact ⟨k, rfl⟩
    | none => rw [t.absent n hn hk] at hf; cases hf
  refine ⟨fun n => (r.names n).getD 0, ?_, ?_, ?_⟩
  · intro n hn hf
    obtain ⟨k, hk⟩ := some_of n hn hf
    have := (t.names n k hk).1
    simp only [hk, Option.getD_some]; omega
  · intro n m hn hm hf hf' he
    obtain ⟨k, hk⟩ := some_of n hn hf
    obtain ⟨k', hk'⟩ := some_of m hm hf'
    simp only [hk, hk', Option.getD_some] at he
    subst he
    obtain ⟨_, _, _, d, c, _, h1⟩ := t.names n k hk
    obtain ⟨_, _, _, d', c', _, h2⟩ := t.names m k hk'
    rw [h1] at h2
    simp only [Option.some.injEq, Info.mk.injEq] at h2
    exact h2.1
  · intro i hi ho
    obtain ⟨r1, r2, e1, e2, e3⟩ := run_at e i hi ho
    have hc1 : ∀ op ∈ ops.take i, TypeCall op := fun op h => hc op (List.mem_of_mem_take h)
    have t1 := typeCalls_ok _ hc1 e1
    obtain ⟨t2, g, a⟩ := typeCall_ok t1 (hc _ (List.getElem_mem hi)) e2
    have g2 := typeCalls_names _ t2 (fun op h => hc op (List.mem_of_mem_drop h)) e3
    -- the answer mentions only names that are registered by now
    have same : ∀ n k, r2.names n = some k → (r.names n).getD 0 = (r2.names n).getD 0 := by
      intro n k hk; rw [g2 n k hk, hk]
    have reg2 : ∀ n, n ≠ [] → (firstReg (ops.take i) n).isSome → ∃ k, r2.names n = some k := by
      intro n hn hf
      cases hk : r2.names n with
      | some k => exact ⟨k, rfl⟩
      | none =>
        have := t2.absent n hn hk
        rw [firstReg_snoc] at this
        cases h : firstReg (ops.take i) n with
        | none => rw [h] at hf; cases hf
        | some x => rw [h] at this; cases this
    cases hop : ops[i] with
    | reg n d c =>
      rw [hop] at a e2 t2
      simp only [TypeAnswer] at a ⊢
      rw [a]
      by_cases hn : n = []
      · simp [hn]
      · simp only [hn, if_false]
        have : ∃ k, r2.names n = some k := by
          cases hk : r2.names n with
          | some k => exact ⟨k, rfl⟩
          | none =>
            have := t2.absent n hn hk
            rw [firstReg_snoc] at this
            cases h : firstReg (ops.take i) n with
            | none => rw [h] at this; simp [firstReg] at this
            | some x => rw [h] at this; cases this
        obtain ⟨k, hk⟩ := this
        rw [same n k hk]
    | lookup n =>
      rw [hop] at a
      simp only [TypeAnswer] at a ⊢
      rw [a]
      by_cases hx : n ≠ [] ∧ (firstReg (ops.take i) n).isSome
      · obtain ⟨k, hk⟩ := reg2 n hx.1 hx.2
        rw [if_pos hx, if_pos hx, same n k hk]
      · rw [if_neg hx, if_neg hx]
    | observe id =>
      rw [hop] at a
      simp only [TypeAnswer] at a ⊢
      intro n d c hn hf hid
      obtain ⟨k, hk⟩ := reg2 n hn (by rw [hf]; rfl)
      exact a n d c hn hf (by rw [hid, same n k hk])
    | _ => trivial

example : Reg.init.run Rtti.Ex.rname [.reg ['a'] Ex.d1 0, .lookup ['b'], .reg ['b'] Ex.d2 1, .reg ['a'] Ex.d2 7, .lookup ['b'],
      .observe 1] =
    .val ((Reg.init.run Rtti.Ex.rname [.reg ['a'] Ex.d1 0, .reg ['b'] Ex.d2 1]).bind
        (fun p => .val p.1) |> fun | .val r => r | _ => Reg.init,
      [.id 1, .id 0, .id 2, .id 1, .id 2, .obs ⟨true, ['a'], Ex.d1, 1⟩]) := by rfl

/-- C01, for programs that use everything (templates, converters, look-ups, raw registrations), until
    static objects are destroyed: an id once answered for a name stays the answer for that name, and is never
    the answer for another name. -/
theorem C01_stable_in_any_program (nm : RType → Str) (ops : List RegOp) (r : Reg) (outs : List RegOut)
    (e : Reg.init.run nm ops = .val (r, outs)) (hl : LegalProgram ops outs) (hd : .destroy ∉ ops)
    (i j : Nat) (hij : i < j) (hj : j < ops.length) (ho : outs.length = ops.length) (n m : Str) (k k' : TypeId)
    (h1 : ops[i] = .lookup n) (h2 : outs[i]'(by omega) = .id k) (hk : k ≠ 0)
    (h3 : ops[j] = .lookup m) (h4 : outs[j]'(by omega) = .id k') : k' = k ↔ n = m := by
  obtain ⟨r1, r2, r3, r4, a2, b2, ok1, ok3, g, _⟩ := run_between e hl hd hij hj ho
  have look : ∀ {r r' : Reg} {n k}, r.Ok false → r.step nm (.lookup n) = .val (r', .id k) →
      (k ≠ 0 → r.names n = some k) ∧ (∀ x, r.names n = some x → x = k) := by
    intro r r' n k ok h
    have ha := (ok.phases rfl).1
    have ha' : r.touch.types ≠ .destroyed := fun h => ha (touch_destroyed.1 h)
    have : r.step nm (.lookup n) = .val (r.touch, .id (r.getTypeInfo n)) := by
      simp [step, ofName_eq, typeId_eq, Reg.hd, ha, ha']
    rw [this] at h
    simp only [Res.val.injEq, Prod.mk.injEq, RegOut.id.injEq] at h
    rw [← h.2]
    unfold getTypeInfo
    refine ⟨?_, ?_⟩
    · by_cases hn : n = []
      · simp [hn]
      · simp only [hn, if_false]
        cases r.names n <;> simp
    · intro x hx
      have hn : n ≠ [] := by
        rintro rfl
        obtain ⟨i, hi, hi'⟩ := ok.names _ _ hx
        exact (ok.info _ _ hi).2.2.2.1 hi'
      simp [hn, hx]
  rw [h1, h2] at a2
  rw [h3, h4] at b2
  have n1 := (look ok1 a2).1 hk
  have n3 := g.names _ _ n1
  constructor
  · rintro rfl
    have m3 := (look ok3 b2).1 hk
    obtain ⟨x, hx, hx'⟩ := ok3.names _ _ n3
    obtain ⟨y, hy, hy'⟩ := ok3.names _ _ m3
    rw [hx] at hy; cases hy
    exact hx'.symm.trans hy'
  · rintro rfl
    exact ((look ok3 b2).2 k n3).symm

/-- C02: after any history of registrations, look-ups and observations, looking a registered name up and
    observing the id shows the first description, never a later one. -/
theorem C02_first_wins (nm : RType → Str) (ops : List RegOp) (hc : ∀ op ∈ ops, TypeCall op) (n : Str) (hn : n ≠ [])
    (d : Desc) (c : TypeId) (hf : firstReg ops n = some (d, c)) (r : Reg) (outs : List RegOut) (k : TypeId) (o : RegOut)
    (e : Reg.init.run nm (ops ++ [.lookup n, .observe k]) = .val (r, outs ++ [.id k, o])) :
    k ≠ 0 ∧ o = .obs ⟨true, n, d, if c = 0 then k else c⟩ := by
  have hc' : ∀ op ∈ ops ++ [.lookup n, .observe k], TypeCall op := by
    intro op hop
    simp only [List.mem_append, List.mem_cons, List.not_mem_nil, or_false] at hop
    rcases hop with hop | rfl | rfl
    · exact hc op hop
    all_goals trivial
  have hl := run_length e
  obtain ⟨f, f1, _, f3⟩ := C01_answers nm _ hc' r _ e
  have hl' : outs.length = ops.length := by simpa using hl
  have first_app : ∀ (a b : List RegOp) n x, firstReg a n = some x → firstReg (a ++ b) n = some x := by
    intro a b n x h
    unfold firstReg at *
    rw [List.findSome?_append, h]; rfl
  have a1 := f3 ops.length (by simp) (by simp [hl'])
  have a2 := f3 (ops.length + 1) (by simp) (by simp [hl'])
  simp only [List.take_left', List.getElem_append_right (Nat.le_refl _), Nat.sub_self, List.getElem_cons_zero,
    List.getElem_append_right (Nat.le_of_eq hl'), hl'] at a1
  have h1 : k = f n := by
    simp [TypeAnswer, hn, hf] at a1
    exact a1
  have e1 : (ops ++ [RegOp.lookup n, .observe k])[ops.length + 1]'(by simp) = .observe k := by
    simp [List.getElem_append_right (Nat.le_succ _)]
  have e2 : (outs ++ [RegOut.id k, o])[ops.length + 1]'(by simp [hl']) = o := by
    simp [← hl', List.getElem_append_right (Nat.le_succ _)]
  rw [e1, e2] at a2
  refine ⟨?_, a2 n d c hn ?_ h1⟩
  · rw [h1]
    exact f1 n hn (by rw [first_app _ _ _ _ hf]; rfl)
  · rw [List.take_append]
    simp only [List.take_of_length_le (Nat.le_succ ops.length)]
    exact first_app _ _ _ _ hf

theorem C04_observe_invalid (nm : RType → Str) (r : Reg) : ∃ r', r.step nm (.observe 0) = .val (r', .obs neutral) := by
  have h0 : r.hd 0 = 0 := by simp [Reg.hd]
  exact ⟨r.touch, by simp [step, ofId_eq, h0, Reg.observe, Res.bind, neutral]⟩

/-- C02, for programs that use everything, until static objects are destroyed: whatever is registered in
    between, two observations of an id give the same answer. -/
theorem C02_never_changes (nm : RType → Str) (ops : List RegOp) (r : Reg) (outs : List RegOut)
    (e : Reg.init.run nm ops = .val (r, outs)) (hl : LegalProgram ops outs) (hd : .destroy ∉ ops)
    (i j : Nat) (hij : i < j) (hj : j < ops.length) (ho : outs.length = ops.length) (k : TypeId)
    (h1 : ops[i] = .observe k) (h2 : ops[j] = .observe k) : outs[j]'(by omega) = outs[i]'(by omega) := by
  obtain ⟨r1, r2, r3, r4, a2, b2, ok1, ok3, g, kn⟩ := run_between e hl hd hij hj ho
  have hk : k ∈ known (outs.take i) := by
    have := hl i (by omega)
    rw [h1] at this
    exact this
  have see : ∀ {r r' : Reg} {x : Info} {o : RegOut}, r.Ok false → k ≠ 0 → r.info k = some x →
      r.step nm (.observe k) = .val (r', o) → o = .obs ⟨true, x.name, x.desc, x.decay⟩ := by
    intro r r' x o ok hk hx h
    have ha := (ok.phases rfl).1
    simp [step, ofId_eq, Reg.hd, ha, Reg.observe, hk, deref, hx, Res.bind] at h
    exact h.2.symm
  rw [h1] at a2
  rw [h2] at b2
  by_cases h0 : k = 0
  · subst h0
    obtain ⟨_, c1⟩ := (C04_observe_invalid nm r1)
    obtain ⟨_, c3⟩ := (C04_observe_invalid nm r3)
    rw [c1] at a2
    rw [c3] at b2
    simp only [Res.val.injEq, Prod.mk.injEq] at a2 b2
    rw [← a2.2, ← b2.2]
  · rcases kn k hk with h | h | ⟨x, hx⟩
    · exact absurd h h0
    · exact absurd h (ok1.phases rfl).1
    · rw [see ok1 h0 hx a2, see ok3 h0 (g.info _ _ hx) b2]

/-! ### C03 -/

/-- C03: in every program that gets its ids through `metaTypeId`, with a naming that tells types apart, two
    types (not `void` up to qualifiers) report the same decay id exactly when they have the same decay; and a
    type is its own decay exactly when it reports its own id. -/
theorem C03_ids (nm : RType → Str) (hn : Function.Injective nm) (h0 : ∀ T, nm T ≠ []) (ops : List RegOp)
    (hc : ∀ op ∈ ops, TypedCall op) (S T : RType) (hS : ¬ IsVoid S.t) (hT : ¬ IsVoid T.t) (r : Reg) (a b : TypeId)
    (outs : List RegOut) (x y : Reg.Obs)
    (e : Reg.init.run nm (ops ++ [.idOf S, .idOf T]) = .val (r, outs ++ [.id a, .id b]))
    (hx : r.observe a = .val x) (hy : r.observe b = .val y) :
    (x.decay = y.decay ↔ SameDecay S.t T.t) ∧ (a = x.decay ↔ S.ref = .none ∧ S.t.fullDecay = S.t) ∧
    x.valid = true ∧ x.desc = describe S := by
  rw [show ops ++ [.idOf S, .idOf T] = (ops ++ [.idOf S]) ++ [.idOf T] by simp] at e
  obtain ⟨r2, outs2, o2, e1, e2, eo⟩ := run_snoc_val e
  obtain ⟨r1, outs1, o1, e3, e4, eo'⟩ := run_snoc_val e1
  subst eo'
  have eo2 : outs ++ [RegOut.id a, RegOut.id b] = outs1 ++ [o1, o2] := by simpa using eo
  have : outs.length = outs1.length := by
    have := congrArg List.length eo2; simp at this; exact this
  obtain ⟨rfl, h3⟩ := List.append_inj eo2 this
  simp only [List.cons.injEq, and_true] at h3
  obtain ⟨rfl, rfl⟩ := h3
  obtain ⟨ok1, t1, c1⟩ := typed_run hn h0 ops hc e3
  simp only [step] at e4 e2
  obtain ⟨ok2, i2⟩ := metaTypeId_ok (nm := nm) (T := S) ok1
  have t2 := metaTypeId_typed hn h0 S ok1 t1
  simp only [Res.val.injEq, Prod.mk.injEq, RegOut.id.injEq] at e4 e2
  obtain ⟨e4, e4'⟩ := e4
  obtain ⟨e2, e2'⟩ := e2
  have k2 := (metaTypeId_key ok2 t2 i2).1 hS
  generalize hp : r1.metaTypeId nm S = p at *
  obtain ⟨p1, p2⟩ := p
  simp only at e4 e4' k2
  subst e4; subst e4'
  obtain ⟨ok3, i3⟩ := metaTypeId_ok (nm := nm) (T := T) ok2
  have t3 := metaTypeId_typed hn h0 T ok2 t2
  have k3 := (metaTypeId_key ok3 t3 i3).1 hT
  generalize hq : Reg.metaTypeId nm p1 T = q at *
  obtain ⟨q1, q2⟩ := q
  simp only at e2 e2' k3
  subst e2; subst e2'
  obtain ⟨i, d, h1, rfl, h3, h4⟩ := k2
  obtain ⟨j, d', h1', rfl, h3', h4'⟩ := k3
  have h1 := i3.grows.info _ _ h1
  have h3 := i3.grows.holders _ _ h3
  have xe : x = ⟨true, i.name, i.desc, i.decay⟩ := by
    simp only at h1
    simp only [Reg.observe, h4, if_false, deref, h1, Res.bind, Res.val.injEq] at hx
    exact hx.symm
  have ye : y = ⟨true, j.name, j.desc, j.decay⟩ := by
    simp only [Reg.observe, h4', if_false, deref, h1', Res.bind, Res.val.injEq] at hy
    exact hy.symm
  have hv : isVoid S = false := by
    cases e : isVoid S with
    | false => rfl
    | true => exact absurd (isVoid_imp e) hS
  have hh := i3.grows.holders _ _ (i2.held hv)
  subst xe; subst ye
  refine ⟨?_, ?_, rfl, ?_⟩
  · constructor
    · intro he
      simp only at he h3 h3'
      rw [he] at h3
      have := t3.inj hn h3 h3'
      rw [← fullDecay_iff]
      exact congrArg RType.t this
    · intro hsd
      rw [← fullDecay_iff] at hsd
      have : dec S = dec T := by simp [dec, hsd]
      rw [this, h3'] at h3
      simpa using h3.symm
  · simp only
    constructor
    · intro he
      rw [← he] at h3
      have := t3.inj hn hh h3
      exact ⟨congrArg RType.ref this, (congrArg RType.t this).symm⟩
    · rintro ⟨h5, h6⟩
      have : dec S = S := by cases S; simp_all [dec]
      rw [this] at h3
      simp only at hh
      rw [hh] at h3
      simpa using h3
  · obtain ⟨d, h5, _⟩ := t3.held S _ hh
    simp only at h1 h5
    rw [h1] at h5
    simp only [Option.some.injEq] at h5
    rw [h5]

example : Reg.init.run Rtti.Ex.rname [.idOf Ex.vci, .idOf Ex.vi, .observe 2] =
    .val ((Reg.init.metaTypeId Rtti.Ex.rname Ex.vci).1, [.id 2, .id 1, .obs ⟨true, Rtti.Ex.rname Ex.vci, describe Ex.vci, 1⟩]) := by rfl

/-- The hypothesis on `void` is needed: `void const` and `void volatile` have the same decay, but report
    themselves as their decays (`metaTypeId<void>()` is the invalid id). -/
theorem C03_cv_void_false : ∃ (S T : RType) (x y : Reg.Obs), SameDecay S.t T.t ∧ x.decay ≠ y.decay ∧
    ∃ r, Reg.init.run (fun T => if T.t.isConst then ['c'] else ['v']) [.idOf S, .idOf T, .observe 1, .observe 2] =
      .val (r, [.id 1, .id 2, .obs x, .obs y]) :=
  ⟨⟨.none, .base Ex.voidB ⟨true, false⟩⟩, ⟨.none, .base Ex.voidB ⟨false, true⟩⟩, ⟨true, _, _, 1⟩, ⟨true, _, _, 2⟩,
    (fullDecay_iff _ _).1 (by decide), by simp, _, rfl⟩

/-! ### C04 -/

/-- C04: whatever a well-behaved program has done, including the destruction of any of the library's
    static objects, no call it may make touches a destroyed object. -/
theorem C04_no_ub (nm : RType → Str) (ops : List RegOp) (r : Reg) (outs : List RegOut)
    (e : Reg.init.run nm ops = .val (r, outs)) (hl : LegalProgram ops outs) (op : RegOp) (ho : LegalCall ops outs op) :
    ∃ r' o, r.step nm op = .val (r', o) := by
  obtain ⟨h1, h2⟩ := run_ok ops e hl
  obtain ⟨r', o, h3, _⟩ := step_ok (nm := nm) h1 h2 (by simp) ho
  exact ⟨r', o, h3⟩

/-- C04: once the type registry is destroyed, every call (other than on an old handle) answers "nothing", and
    that remains so. -/
theorem C04_after_shutdown (nm : RType → Str) (r : Reg) (hd : r.types = .destroyed) (op : RegOp) (h1 : op ≠ .destroy)
    (h2 : ∀ a, op ≠ .observeOld a) :
    ∃ r' o, r.step nm op = .val (r', o) ∧ AfterShutdown op o ∧ r'.types = .destroyed := gone hd op h1 h2

/-- C04: the empty name is never found, and an invalid handle gives the neutral answers, in every state. -/
theorem C04_invalid (nm : RType → Str) (r : Reg) : (∃ r', r.step nm (.lookup []) = .val (r', .id 0)) ∧
    (∃ r', r.step nm (.observe 0) = .val (r', .obs neutral)) ∧
    (∀ b, ∃ r', r.step nm (.compatible 0 b) = .val (r', .compat (some false))) ∧
    (∀ a, ∃ r', r.step nm (.compatible a 0) = .val (r', .compat (some false))) ∧
    (∀ b, ∃ r', r.step nm (.has 0 b) = .val (r', .bool false)) ∧
    (∀ a, ∃ r', r.step nm (.has a 0) = .val (r', .bool false)) ∧
    (∀ b, ∃ r', r.step nm (.convert 0 b) = .val (r', .ran none)) ∧
    (∀ a, ∃ r', r.step nm (.convert a 0) = .val (r', .ran none)) := by
  have h0 : r.hd 0 = 0 := by simp [Reg.hd]
  refine ⟨⟨r.touch, ?_⟩, ⟨r.touch, ?_⟩, fun b => ⟨r.touch, ?_⟩, fun b => ⟨r.touch, ?_⟩, fun b => ⟨r.touch, ?_⟩,
    fun b => ⟨r.touch, ?_⟩, fun b => ⟨r.touch, ?_⟩, fun b => ⟨r.touch, ?_⟩⟩
  · simp [step, ofName_eq, typeId_eq, getTypeInfo, h0]
  · simp [step, ofId_eq, h0, Reg.observe, Res.bind, neutral]
  · simp [step, ofId_eq, h0, compatibleH, Res.bind]
  · simp [step, ofId_eq, h0, compatibleH, Res.bind]
  · simp [step, ofId_eq, h0, hasConverter, hasConverterH, withList, Res.bind]
  · simp [step, ofId_eq, h0, hasConverter, hasConverterH, withList, Res.bind]
  · simp [step, ofId_eq, h0, Reg.convert, convertH, withList, Res.bind]
  · simp [step, ofId_eq, h0, Reg.convert, convertH, withList, Res.bind]

/-- C04 is false for handles made before: their observers read the freed entry. -/
theorem C04_old_handle_false : ∃ ops : List RegOp, ∃ r outs k, Reg.init.run Rtti.Ex.rname ops = .val (r, outs) ∧
    k ∈ known outs ∧ r.types = .destroyed ∧ r.step Rtti.Ex.rname (.observeOld k) = .ub :=
  ⟨[.idOf Ex.vi, .destroy], _, _, 1, rfl, by decide, rfl, rfl⟩

/-- Registering a converter again after its static object was destroyed (while the registry still lives) makes
    later conversions run a destroyed object: the restriction on `regT` in `LegalCall` is needed. -/
theorem C04_register_during_shutdown_false : ∃ ops : List RegOp, ∃ r outs, Reg.init.run Rtti.Ex.rname ops = .val (r, outs) ∧
    r.types = .alive ∧ r.step Rtti.Ex.rname (.convertT Ex.vi Ex.vX) = .ub :=
  ⟨[.regT Ex.vi Ex.vi 0 1, .regT Ex.vi Ex.vX 0 2, .destroy, .regT Ex.vi Ex.vX 0 3], _, _, rfl, rfl, rfl⟩

example : ∃ r outs, Reg.init.run Rtti.Ex.rname [.idOf Ex.vi, .regT Ex.vi Ex.vX 0 2, .destroy, .destroy, .destroy] = .val (r, outs) ∧
    r.types = .destroyed := ⟨_, _, rfl, rfl⟩

/-! ### C11 -/

/-- C11 (presence, return values, which object runs): in every program that uses converters through the
    templates, with a naming that tells types apart, every answer is the one of the abstract map. A
    conversion runs the function the *first* registration call with that pair and functor type supplied.
    Missing for the full property: see `C12_false`. -/
theorem C11_answers_partial (nm : RType → Str) (hn : Function.Injective nm) (h0 : ∀ T, nm T ≠ []) (ops : List RegOp)
    (hc : ∀ op ∈ ops, TypedCall op) (r : Reg) (outs : List RegOut) (e : Reg.init.run nm ops = .val (r, outs))
    (i : Nat) (hi : i < ops.length) (ho : i < outs.length) : ConvAnswer (ops.take i) ops[i] outs[i] := by
  obtain ⟨r1, r2, e1, e2, _⟩ := run_at e i hi ho
  obtain ⟨o1, t1, c1⟩ := typed_run hn h0 _ (fun op h => hc op (List.mem_of_mem_take h)) e1
  exact (typed_step hn h0 o1 t1 c1 (hc _ (List.getElem_mem hi)) e2).2.2

/-- typed programs always run to their end -/
theorem C11_total (nm : RType → Str) (ops : List RegOp) (hc : ∀ op ∈ ops, TypedCall op) :
    ∃ r outs, Reg.init.run nm ops = .val (r, outs) := by
  induction ops using snocInd with
  | h0 => exact ⟨_, _, rfl⟩
  | h1 ops op ih =>
    obtain ⟨r, outs, e⟩ := ih (fun x hx => hc x (by simp [hx]))
    have hl : LegalCall ops outs op := by
      have h1 := hc op (by simp)
      cases op with
      | regT S T f fn => intro hd; exact hc .destroy (by simp [hd])
      | _ => first | trivial | cases h1
    obtain ⟨r', o, e'⟩ := C04_no_ub nm ops r outs e (typed_legal (fun x hx => hc x (by simp [hx]))) op hl
    exact ⟨r', outs ++ [o], by rw [run_snoc, e]; simp [Res.bind, e']⟩

/-- C01: calls to register and to look up always return, one answer each. -/
theorem C01_total (nm : RType → Str) (ops : List RegOp)
    (hc : ∀ op ∈ ops, (∃ n d c, op = .reg n d c) ∨ ∃ n, op = .lookup n) :
    ∃ r outs, Reg.init.run nm ops = .val (r, outs) ∧ outs.length = ops.length := by
  induction ops using snocInd with
  | h0 => exact ⟨_, _, rfl, rfl⟩
  | h1 ops op ih =>
    obtain ⟨r, outs, e, hl⟩ := ih (fun x hx => hc x (by simp [hx]))
    have t := typeCalls_ok ops (fun x hx => by
      rcases hc x (by simp [hx]) with ⟨n, d, c, rfl⟩ | ⟨n, rfl⟩ <;> trivial) e
    have : ∃ r' o, r.step nm op = .val (r', o) := by
      have td : r.touch.types ≠ .destroyed := fun h => t.alive (touch_destroyed.1 h)
      rcases hc op (by simp) with ⟨n, d, c, rfl⟩ | ⟨n, rfl⟩
      · exact ⟨_, _, rfl⟩
      · exact ⟨r.touch, .id (r.getTypeInfo n), by simp [step, ofName_eq, typeId_eq, Reg.hd, t.alive, td]⟩
    obtain ⟨r', o, e'⟩ := this
    exact ⟨r', outs ++ [o], by rw [run_snoc, e]; simp [Res.bind, e'], by simp [hl]⟩

example : ∃ r outs, Reg.init.run Rtti.Ex.rname [.reg ['a'] Ex.d1 0, .lookup ['b'], .reg ['b'] Ex.d2 1] = .val (r, outs) ∧
    outs.length = 3 := C01_total _ _ (by simp)

theorem firstFn_of_same {h : List RegOp} {S T : RType} {f fn : Nat}
    (h1 : ∀ S' T' fn', .regT S' T' f fn' ∈ h → SamePair S T S' T' → fn' = fn)
    (h2 : ∃ S' T', .regT S' T' f fn ∈ h ∧ SamePair S T S' T') : firstFn h S T f = some fn := by
  cases e : firstFn h S T f with
  | some x =>
    unfold firstFn at e
    obtain ⟨op, hop, he⟩ := List.exists_of_findSome?_eq_some e
    cases op <;> simp at he
    rename_i S' T' f' fn'
    obtain ⟨⟨hp, rfl⟩, rfl⟩ := he
    rw [h1 S' T' _ hop hp]
  | none =>
    obtain ⟨S', T', hm, hp⟩ := h2
    unfold firstFn at e
    rw [List.findSome?_eq_none_iff] at e
    have := e _ hm
    simp [hp] at this

theorem present_mem {h : List RegOp} {S T : RType} {f fn : Nat} (hp : present h S T = some (f, fn)) :
    ∃ S' T', .regT S' T' f fn ∈ h ∧ SamePair S T S' T' := by
  induction h using snocInd with
  | h0 => cases hp
  | h1 h op ih =>
    have lift : present h S T = some (f, fn) → ∃ S' T', RegOp.regT S' T' f fn ∈ h ++ [op] ∧ SamePair S T S' T' := by
      intro hp
      obtain ⟨S', T', h1, h2⟩ := ih hp
      exact ⟨S', T', by simp [h1], h2⟩
    rw [present_snoc] at hp
    cases op with
    | regT S' T' f' fn' =>
      simp only at hp
      split at hp
      · rename_i hx
        cases hp
        exact ⟨S', T', by simp, hx.1⟩
      · exact lift hp
    | unregT S' T' =>
      simp only at hp
      split at hp
      · cases hp
      · exact lift hp
    | _ => exact lift hp

/-- C11 (which function runs): if calls for one pair and functor type always pass the same function (as with a
    lambda without captures), a conversion runs the function of the registration in force. -/
theorem C11_conversion_partial (nm : RType → Str) (hn : Function.Injective nm) (h0 : ∀ T, nm T ≠ []) (ops : List RegOp)
    (hc : ∀ op ∈ ops, TypedCall op) (S T : RType)
    (h1 : ∀ S' T' S'' T'' f fn fn', .regT S' T' f fn ∈ ops → .regT S'' T'' f fn' ∈ ops → SamePair S T S' T' →
      SamePair S T S'' T'' → fn = fn') :
    ∃ r r' outs, Reg.init.run nm ops = .val (r, outs) ∧
      r.step nm (.convertT S T) = .val (r', .ran ((present ops S T).map Prod.snd)) := by
  obtain ⟨r', outs', e⟩ := C11_total nm (ops ++ [.convertT S T]) (by
    intro op hop
    rw [List.mem_append, List.mem_singleton] at hop
    rcases hop with hop | rfl
    · exact hc op hop
    · trivial)
  obtain ⟨r, outs, o, e1, e2, rfl⟩ := run_snoc_val e
  obtain ⟨o1, t1, c1⟩ := typed_run hn h0 _ hc e1
  have := (typed_step hn h0 o1 t1 c1 (by trivial) e2).2.2
  refine ⟨r, r', outs, e1, ?_⟩
  rw [e2, show o = _ from this]
  cases hp : present ops S T with
  | none => rfl
  | some x =>
    obtain ⟨f, fn⟩ := x
    have hm := present_mem hp
    simp only [Option.bind_some, Option.map_some]
    rw [firstFn_of_same (fn := fn) (fun S' T' fn' h2 h3 => ?_) hm]
    obtain ⟨S'', T'', h4, h5⟩ := hm
    exact h1 _ _ _ _ f fn' fn h2 h4 h3 h5

/-- C11: a registration or removal changes no answer about other pairs: whether there is a converter, and what a conversion runs. -/
theorem C11_others_unaffected (nm : RType → Str) (hn : Function.Injective nm) (h0 : ∀ T, nm T ≠ []) (ops : List RegOp)
    (hc : ∀ op ∈ ops, TypedCall op) (S T S' T' : RType) (hne : ¬ SamePair S T S' T') (x q : RegOp)
    (hx : (∃ f fn, x = .regT S' T' f fn) ∨ x = .unregT S' T') (hq : q = .hasT S T ∨ q = .convertT S T) :
    ∃ r r' r0 outs y o, Reg.init.run nm (ops ++ [q]) = .val (r, outs ++ [o]) ∧
      Reg.init.run nm (ops ++ [x, q]) = .val (r', outs ++ [y] ++ [o]) ∧ Reg.init.run nm ops = .val (r0, outs) := by
  have tx : TypedCall x := by rcases hx with ⟨f, fn, rfl⟩ | rfl <;> trivial
  have tq : TypedCall q := by rcases hq with rfl | rfl <;> trivial
  have hcx : ∀ op ∈ ops ++ [x], TypedCall op := by
    intro op h
    rw [List.mem_append, List.mem_singleton] at h
    rcases h with h | rfl
    · exact hc op h
    · exact tx
  obtain ⟨r, outs1, e⟩ := C11_total nm (ops ++ [q]) (by
    intro op h
    rw [List.mem_append, List.mem_singleton] at h
    rcases h with h | rfl
    · exact hc op h
    · exact tq)
  obtain ⟨r', outs2, e'⟩ := C11_total nm ((ops ++ [x]) ++ [q]) (by
    intro op h
    rw [List.mem_append, List.mem_singleton] at h
    rcases h with h | rfl
    · exact hcx op h
    · exact tq)
  obtain ⟨r1, o1, o, e1, e2, rfl⟩ := run_snoc_val e
  obtain ⟨r2, o2, o', e3, e4, rfl⟩ := run_snoc_val e'
  obtain ⟨r3, o3, y, e5, e6, rfl⟩ := run_snoc_val e3
  rw [e1] at e5; cases e5
  obtain ⟨a1, a2, a3⟩ := typed_run hn h0 _ hc e1
  obtain ⟨b1, b2, b3⟩ := typed_run hn h0 _ hcx e3
  have h1 := (typed_step hn h0 a1 a2 a3 tq e2).2.2
  have h2 := (typed_step hn h0 b1 b2 b3 tq e4).2.2
  have hp : present (ops ++ [x]) S T = present ops S T := by
    rw [present_snoc]
    rcases hx with ⟨f, fn, rfl⟩ | rfl <;> simp [hne]
  have hf : ∀ f, firstFn (ops ++ [x]) S T f = firstFn ops S T f := by
    intro f
    unfold firstFn
    rw [List.findSome?_append]
    rcases hx with ⟨f, fn, rfl⟩ | rfl <;> simp [hne]
  have : o' = o := by
    rcases hq with rfl | rfl
    · rw [show o' = _ from h2, show o = _ from h1, hp]
    · rw [show o' = _ from h2, show o = _ from h1, hp]
      simp only [hf]
  subst this
  exact ⟨r, r', r1, o1, y, o', e, by rw [show ops ++ [x, q] = ops ++ [x] ++ [q] by simp]; exact e', e1⟩

example : (Reg.init.run Rtti.Ex.rname [.hasT Ex.vi Ex.vX, .regT Ex.vi Ex.vX 0 7, .regT Ex.vci Ex.vX 1 8, .hasT Ex.vci Ex.vX,
      .convertT Ex.vci Ex.vX, .unregT Ex.vi Ex.vX, .hasT Ex.vi Ex.vX]).bind (fun p => .val p.2) =
    .val [.bool false, .bool true, .bool false, .bool true, .ran (some 7), .unit, .bool false] := by rfl

/-! ### C12 -/

/-- C12 is false: after `registerConverter(f)`, `unregisterConverter()`, `registerConverter(g)` with `f` and `g`
    of one functor type, the last call returns `true` and conversions run `f`. -/
theorem C12_false : ∃ r outs, Reg.init.run Rtti.Ex.rname [.regT Ex.vi Ex.vX 0 7, .unregT Ex.vi Ex.vX, .regT Ex.vi Ex.vX 0 8,
    .convertT Ex.vi Ex.vX] = .val (r, outs) ∧ outs = [.bool true, .unit, .bool true, .ran (some 7)] := ⟨_, _, rfl, rfl⟩

/-- C12, what holds: the new function runs if no earlier call for the pair used its functor type. -/
theorem C12_partial (nm : RType → Str) (hn : Function.Injective nm) (h0 : ∀ T, nm T ≠ []) (ops : List RegOp)
    (hc : ∀ op ∈ ops, TypedCall op) (S T : RType) (f g : Nat)
    (hf : ∀ S' T' fn, .regT S' T' f fn ∈ ops → ¬ SamePair S T S' T') :
    ∃ r r1 r2 outs o, Reg.init.run nm (ops ++ [.unregT S T]) = .val (r, outs) ∧
      r.step nm (.regT S T f g) = .val (r1, o) ∧
      (¬ IsVoid S.t → ¬ IsVoid T.t → o = .bool true ∧ r1.step nm (.convertT S T) = .val (r2, .ran (some g))) := by
  have hall : ∀ op ∈ ops ++ [.unregT S T, .regT S T f g, .convertT S T], TypedCall op := by
    intro op hop
    simp only [List.mem_append, List.mem_cons, List.not_mem_nil, or_false] at hop
    rcases hop with hop | rfl | rfl | rfl
    · exact hc op hop
    all_goals trivial
  obtain ⟨r2, outs', e⟩ := C11_total nm _ hall
  rw [show ops ++ [.unregT S T, .regT S T f g, .convertT S T] =
    ((ops ++ [.unregT S T]) ++ [.regT S T f g]) ++ [.convertT S T] by simp] at e hall
  obtain ⟨r1, outs1, o1, e1, e2, rfl⟩ := run_snoc_val e
  obtain ⟨r, outs, o, e3, e4, rfl⟩ := run_snoc_val e1
  refine ⟨r, r1, r2, outs, o, e3, e4, ?_⟩
  intro hS hT
  obtain ⟨ok, t, c⟩ := typed_run hn h0 _ (fun op h => hall op (by
    rw [List.mem_append, List.mem_append]; exact .inl (.inl h))) e3
  obtain ⟨t1, c1, b, hb, hb'⟩ := typed_step hn h0 ok t c (by trivial) e4
  obtain ⟨ok1, _, _⟩ := typed_run hn h0 _ (fun op h => hall op (by rw [List.mem_append]; exact .inl h)) e1
  have hself : SamePair S T S T := samePair_iff.2 ⟨rfl, rfl⟩
  have pn : present (ops ++ [.unregT S T]) S T = none := by
    rw [present_snoc]; simp [hself]
  refine ⟨by rw [hb, hb'.2 ⟨pn, hS, hT⟩], ?_⟩
  have a := (typed_step hn h0 ok1 t1 c1 (by trivial) e2).2.2
  rw [e2, show o1 = _ from a]
  have ps : present (ops ++ [.unregT S T] ++ [.regT S T f g]) S T = some (f, g) := by
    rw [present_snoc]; simp [hself, pn, hS, hT]
  have fs : firstFn (ops ++ [.unregT S T] ++ [.regT S T f g]) S T f = some g := by
    apply firstFn_of_same
    · intro S' T' fn' hm hp
      simp only [List.mem_append, List.mem_singleton, reduceCtorEq, or_false] at hm
      rcases hm with hm | hm
      · exact absurd hp (hf S' T' fn' hm)
      · cases hm; rfl
    · exact ⟨S, T, by simp, hself⟩
  rw [ps]
  exact congrArg (fun x => Res.val (r2, RegOut.ran x)) fs

example : (Reg.init.run Rtti.Ex.rname [.regT Ex.vi Ex.vX 0 7, .unregT Ex.vi Ex.vX, .regT Ex.vi Ex.vX 1 8, .convertT Ex.vi Ex.vX]).bind
    (fun p => .val p.2) = .val [.bool true, .unit, .bool true, .ran (some 8)] := by rfl

/-! ### C13 -/

/-- the user's function failed -/
def Fails (k : ConvKind) : UserCall → Prop
  | .throws => True
  | .returns flag ctorThrows => ctorThrows = true ∨ (k = .functorOk ∧ flag = false)

/-- C13, what holds: a converter without the flag parameter reports every failure as `false` and leaves nothing
    behind; and success gives a value. Missing: converters with the flag parameter (`C13_false`). -/
theorem C13_partial (u : UserCall) :
    (Fails .functor u → runConverter .functor u = (.returned false, false)) ∧
    (¬ Fails .functor u → runConverter .functor u = (.returned true, true)) := by
  cases u with
  | throws => simp [Fails, runConverter]
  | returns f c => cases c <;> simp [Fails, runConverter]

/-- C13 is false for converters with the flag parameter: exceptions escape, and after `ok = false` the target
    buffer holds an object although the conversion is reported as failed. -/
theorem C13_false : (∃ u, Fails .functorOk u ∧ (runConverter .functorOk u).1 = .exception) ∧
    (∃ u, Fails .functorOk u ∧ runConverter .functorOk u = (.returned false, true)) :=
  ⟨⟨.throws, trivial, rfl⟩, ⟨.returns false false, .inr ⟨rfl, rfl⟩, rfl⟩⟩

/-- C13: what is left for flagged converters: they never report success without a value. -/
theorem C13_flagged_partial (u : UserCall) (h : (runConverter .functorOk u).1 = .returned true) :
    ¬ Fails .functorOk u ∧ (runConverter .functorOk u).2 = true := by
  cases u with
  | throws => simp [runConverter] at h
  | returns f c => cases c <;> cases f <;> simp_all [Fails, runConverter]

end Rtti.Props
