import Verif.Lemmas.RegFreed
import Verif.Props.Registry
import Verif.Props.Classes
/-! C83: registering types and converters, and adding base classes, when allocations fail. -/
set_option autoImplicit false
namespace Rtti.Props
open Spec Reg

/-- the calls of a program and how they ended, from program start -/
def events (oom : Nat → Bool) (nm : RType → Str) (ops : List RegOp) : List (RegOp × FOut RegOut) :=
  (FReg.init.run oom nm ops).2

/-- Whatever allocations fail, no typed call is undefined, and every converter call that returns answers as if the calls
    that threw had not been made: which pair is converted by which functor type is decided by the calls that returned. What
    a conversion runs is the function of the first call, returned or not, that constructed the converter. (Missing: see
    `C83_converter_false`, `C83_has_false`.) -/
theorem C83_answers_partial (oom : Nat → Bool) (nm : RType → Str) (hn : Function.Injective nm) (h0 : ∀ T, nm T ≠ [])
    (ops : List RegOp) (hc : ∀ op ∈ ops, TypedCall op) (i : Nat) (op : RegOp) (out : FOut RegOut)
    (h : (events oom nm ops)[i]? = some (op, out)) :
    out ≠ .ub ∧ (out = .terminated → ∃ S T, op = .hasT S T) ∧
    ∀ o, out = .ok o → ConvAnswer2 (done ((events oom nm ops).take i)) (made ((events oom nm ops).take i)) op o := by
  obtain ⟨t, s1, s2, v, _, e, _, _⟩ := FReg.run_at hn h0 ops FReg.Inv.init hc i op out h
  refine ⟨?_, ?_, ?_⟩
  · rintro rfl
    exact FReg.step_not_ub (oom := oom) hn h0 v t (by rw [e])
  · rintro rfl
    exact FReg.step_terminated (oom := oom) (nm := nm) (s := s1) (by rintro rfl; cases t) (by rw [e])
  · rintro o rfl
    have := (FReg.step_ok_inv hn h0 v t e).2.1
    simpa [events] using this

/-- Ids under failing allocations: whenever two calls of `metaTypeId` return, they return the same id exactly when the types
    are the same, and never the invalid id; a name looked up after `metaTypeId` has returned for its type gives that id. -/
theorem C83_ids (oom : Nat → Bool) (nm : RType → Str) (hn : Function.Injective nm) (h0 : ∀ T, nm T ≠ []) (ops : List RegOp)
    (hc : ∀ op ∈ ops, TypedCall op) (i j : Nat) (hij : i < j) (S : RType) (a b : TypeId) (hS : ¬ IsVoid S.t)
    (h1 : (events oom nm ops)[i]? = some (.idOf S, .ok (.id a))) :
    a ≠ 0 ∧
    (∀ T, ¬ IsVoid T.t → (events oom nm ops)[j]? = some (.idOf T, .ok (.id b)) → (a = b ↔ S = T)) ∧
    (∀ n, (events oom nm ops)[j]? = some (.lookup n, .ok (.id b)) → (a = b ↔ nm S = n)) := by
  have nv : ∀ {T : RType}, ¬ IsVoid T.t → isVoid T = false := by
    intro T hT
    cases e : isVoid T with
    | false => rfl
    | true => exact absurd (isVoid_imp e) hT
  obtain ⟨_, s1, s2, v, _, e, _, k⟩ := FReg.run_at hn h0 ops FReg.Inv.init hc i _ _ h1
  have hS2 := (FReg.idOf_held hn h0 v e).2 (nv hS)
  obtain ⟨v2, _, _, _, _⟩ := FReg.step_ok_inv hn h0 v (op := .idOf S) trivial e
  obtain ⟨ops2, hc2, e2⟩ := k (.inl ⟨_, rfl⟩)
  have look : ∀ x, (events oom nm ops)[j]? = some x → (s2.run oom nm ops2).2[j - (i + 1)]? = some x := by
    intro x hx
    rw [e2]
    simp only [List.getElem?_drop]
    rw [show i + 1 + (j - (i + 1)) = j by omega]
    exact hx
  have ne : a ≠ 0 := v2.typed.ne_zero v2.ok hS2
  refine ⟨ne, ?_, ?_⟩
  · intro T hT h2
    obtain ⟨_, s3, s4, v3, g3, e3, _, _⟩ := FReg.run_at hn h0 ops2 v2 hc2 _ _ _ (look _ h2)
    have hT4 := (FReg.idOf_held hn h0 v3 e3).2 (nv hT)
    obtain ⟨v4, _, g4, _, _⟩ := FReg.step_ok_inv hn h0 v3 (op := .idOf T) trivial e3
    have hS4 := g4.holders _ _ (g3.holders _ _ hS2)
    constructor
    · rintro rfl
      exact v4.typed.inj hn hS4 hT4
    · rintro rfl
      rw [hS4] at hT4; cases hT4; rfl
  · intro n h2
    obtain ⟨_, s3, s4, v3, g3, e3, _, _⟩ := FReg.run_at hn h0 ops2 v2 hc2 _ _ _ (look _ h2)
    obtain ⟨_, hb⟩ := FReg.lookup_named hn h0 v3 e3
    have hS3 := g3.holders _ _ hS2
    obtain ⟨d, hi, _⟩ := v3.typed.held _ _ hS3
    have hname := (v3.ok.info _ _ hi).1
    dsimp only at hname
    constructor
    · rintro rfl
      by_cases hne : n = []
      · rw [if_pos hne] at hb; exact absurd hb ne
      · rw [if_neg hne] at hb
        cases hx : s3.reg.names n with
        | none => rw [hx] at hb; exact absurd hb ne
        | some k =>
          rw [hx] at hb
          simp only [Option.getD_some] at hb
          subst hb
          obtain ⟨i', hi', hn'⟩ := v3.ok.names _ _ hx
          rw [hi] at hi'; cases hi'
          exact hn'
    · rintro rfl
      rw [hb, if_neg (h0 S), hname]
      rfl

/-- A call that throws or terminates met an allocation that failed while it ran: repeating a call when there is memory
    always gives an answer. -/
theorem C83_retry (oom : Nat → Bool) (nm : RType → Str) (hn : Function.Injective nm) (h0 : ∀ T, nm T ≠ []) (ops : List RegOp)
    (hc : ∀ op ∈ ops, TypedCall op) (s : FReg) (e : (FReg.init.run oom nm ops).1 = s)
    (ht : ∀ op, (op, .terminated) ∉ events oom nm ops) (op : RegOp) (ho : TypedCall op)
    (oom' : Nat → Bool) (hm : ∀ k, s.n ≤ k → oom' k = false) :
    ∃ s' a, s.step oom' nm op = (s', .ok a) ∧ s.reg.step nm op = .val (s'.reg, a) ∧ s'.lost = s.lost ∧
      ConvAnswer2 (done (events oom nm ops)) (made (events oom nm ops)) op a := by
  have v := FReg.run_inv hn h0 ops FReg.Inv.init hc ht
  rw [e] at v
  have hd : op ≠ .destroy := by rintro rfl; cases ho
  have sp := FReg.step_spec (oom := oom') hn h0 s op hd
  have nf : ∀ m, ¬ FReg.Failed oom' s.n m := by
    rintro m ⟨k, e1, _, e3⟩
    rw [hm k e1] at e3; cases e3
  cases hs : s.step oom' nm op with
  | mk s' out =>
    cases out with
    | ok a =>
      obtain ⟨_, b, _, l, c⟩ := FReg.step_ok_inv hn h0 v ho hs
      exact ⟨s', a, rfl, c, l, by simpa [events] using b⟩
    | threw m => rw [hs] at sp; exact absurd (sp.failed m rfl).1 (nf _)
    | terminated => rw [hs] at sp; exact absurd (sp.term rfl).1 (nf _)
    | ub => exact absurd (by rw [hs]) (FReg.step_not_ub (oom := oom') hn h0 v ho)

/-- Once `metaTypeId` has returned for the types of a call, `metaTypeId`, `hasConverter`, a conversion and
    `unregisterConverter` for them never fail again, whatever allocations fail. -/
theorem C83_known (oom : Nat → Bool) (nm : RType → Str) (hn : Function.Injective nm) (h0 : ∀ T, nm T ≠ []) (ops : List RegOp)
    (hc : ∀ op ∈ ops, TypedCall op) (i j k : Nat) (hik : i < k) (hjk : j < k) (S T : RType) (a b : RegOut)
    (h1 : (events oom nm ops)[i]? = some (.idOf S, .ok a)) (h2 : (events oom nm ops)[j]? = some (.idOf T, .ok b))
    (op : RegOp) (hop : op = .idOf S ∨ op = .hasT S T ∨ op = .convertT S T ∨ op = .unregT S T) (out : FOut RegOut)
    (h3 : (events oom nm ops)[k]? = some (op, out)) : ∃ c, out = .ok c := by
  obtain ⟨t, s1, s2, v, _, e, held, _⟩ := FReg.run_at hn h0 ops FReg.Inv.init hc k _ _ h3
  have kS := held i S a hik h1
  have kT := held j T b hjk h2
  have q : ∀ {A : Type} (s : FReg) (y : Res (Reg × A)) (f : A → RegOut), ((s.quiet y).2.map f) ≠ .ub → ∃ c, (s.quiet y).2.map f = .ok c := by
    intro A s y f h
    cases y with
    | val p => exact ⟨f p.2, rfl⟩
    | _ => exact absurd rfl h
  have nub := FReg.step_not_ub (oom := oom) hn h0 v t
  obtain ⟨ab, htwo⟩ := FReg.twoIds_known (oom := oom) (nm := nm) kS kT
  have e2 : (s1.step oom nm op).2 = out := by rw [e]
  rw [← e2]
  rcases hop with rfl | rfl | rfl | rfl
  · obtain ⟨x, hx⟩ := FReg.metaTypeId_known (oom := oom) (nm := nm) kS
    exact ⟨.id x, by simp [FReg.step, hx, FReg.ids]⟩
  · simp only [FReg.step, FReg.hasConverterT, htwo] at nub ⊢
    exact q _ _ _ nub
  · simp only [FReg.step, FReg.convertT, htwo] at nub ⊢
    exact q _ _ _ nub
  · simp only [FReg.step, FReg.unregisterConverterT, htwo] at nub ⊢
    exact q _ _ _ nub

/-- Each call that fails leaves at most one `TypeInfo` without a name in the registry; calls that return leave none. -/
theorem C83_lost (oom : Nat → Bool) (nm : RType → Str) (hn : Function.Injective nm) (h0 : ∀ T, nm T ≠ []) (ops : List RegOp)
    (hc : ∀ op ∈ ops, TypedCall op) : (FReg.init.run oom nm ops).1.lost.length ≤ failures (events oom nm ops) := by
  have := FReg.run_lost (oom := oom) hn h0 ops FReg.Inv.init hc
  simpa [FReg.init, events] using this

/-- Shutdown after a program whose calls failed, with memory: every destructor runs, whatever was left half done. -/
theorem C83_shutdown (oom : Nat → Bool) (nm : RType → Str) (hn : Function.Injective nm) (h0 : ∀ T, nm T ≠ []) (ops : List RegOp)
    (hc : ∀ op ∈ ops, TypedCall op) (ht : ∀ op, (op, .terminated) ∉ events oom nm ops) (n : Nat)
    (oom' : Nat → Bool) (hm : ∀ k, (FReg.init.run oom nm ops).1.n ≤ k → oom' k = false) :
    ((FReg.init.run oom nm ops).1.run oom' nm (List.replicate n .destroy)).2 = List.replicate n (.destroy, .ok .unit) :=
  FReg.destroy_all hn h0 n (FReg.run_inv hn h0 ops FReg.Inv.init hc ht).ok hm

/-- Nothing stays behind: a `TypeInfo` without a name is there only while the registry is alive, whatever calls and failures
    there were. -/
theorem C83_freed (oom : Nat → Bool) (nm : RType → Str) (ops : List RegOp) :
    (FReg.init.run oom nm ops).1.reg.types ≠ .alive → (FReg.init.run oom nm ops).1.lost = [] := by
  intro h
  have := FReg.held_run (oom := oom) (nm := nm) ops (s := .init) (fun x => absurd rfl x)
  exact Decidable.byContradiction fun x => h (this x)

/-- At exit, with memory: when no static is left to destroy, every `TypeInfo` without a name is freed. -/
theorem C83_exit_freed (oom : Nat → Bool) (nm : RType → Str) (hn : Function.Injective nm) (h0 : ∀ T, nm T ≠ []) (ops : List RegOp)
    (hc : ∀ op ∈ ops, TypedCall op) (ht : ∀ op, (op, .terminated) ∉ events oom nm ops) (n : Nat)
    (oom' : Nat → Bool) (hm : ∀ k, (FReg.init.run oom nm ops).1.n ≤ k → oom' k = false)
    (he : ((FReg.init.run oom nm ops).1.run oom' nm (List.replicate n .destroy)).1.reg.order = []) :
    ((FReg.init.run oom nm ops).1.run oom' nm (List.replicate n .destroy)).1.lost = [] := by
  obtain ⟨sd, o⟩ := FReg.destroy_all_ok hn h0 n (FReg.run_inv hn h0 ops FReg.Inv.init hc ht).ok hm
  have := FReg.held_run (oom := oom') (nm := nm) (List.replicate n .destroy)
    (FReg.held_run (oom := oom) (nm := nm) ops (s := .init) (fun x => absurd rfl x))
  refine Decidable.byContradiction fun x => ?_
  have y := o.oTypes.mpr (this x)
  rw [he] at y
  cases y

/-- an object without a name, freed by the destructor of the registry (the destructor of the converter makes the list of
    converters, so that there are three statics in the end) -/
example :
    let s := (FReg.init.run (fun k => k == 1 || k == 5) Rtti.Ex.rname [.idOf Ex.vi, .regT Ex.vi Ex.vX 0 10]).1
    let t := (s.run (fun _ => false) Rtti.Ex.rname (List.replicate 3 .destroy)).1
    s.lost.length = 1 ∧ s.reg.order.length = 2 ∧ t.reg.order = [] ∧ t.lost = [] := by
  refine ⟨by decide +kernel, by decide +kernel, by decide +kernel, by decide +kernel⟩

/-- With memory, every call does what `Reg.step` says: the model of this file extends the one of C01-C12. -/
theorem C83_no_fault (nm : RType → Str) (hn : Function.Injective nm) (h0 : ∀ T, nm T ≠ []) (s : FReg) (op : RegOp)
    (hd : op ≠ .destroy) (r : Reg) (a : RegOut) (h : s.reg.step nm op = .val (r, a)) :
    ∃ s', s.step (fun _ => false) nm op = (s', .ok a) ∧ s'.reg = r ∧ s'.lost = s.lost := by
  have sp := FReg.step_spec (oom := fun _ => false) hn h0 s op hd
  have nf : ∀ a b, ¬ FReg.Failed (fun _ => false) a b := by
    rintro a b ⟨k, _, _, e⟩; cases e
  cases hs : s.step (fun _ => false) nm op with
  | mk s' out =>
    rw [hs] at sp
    cases out with
    | ok b =>
      obtain ⟨e, l⟩ := sp.ok b rfl
      rw [h] at e; cases e
      exact ⟨s', rfl, rfl, l⟩
    | threw m => exact absurd (sp.failed m rfl).1 (nf _ _)
    | terminated => exact absurd (sp.term rfl).1 (nf _ _)
    | ub => exact absurd h (sp.ub rfl _)

/-- The property as stated: a call that threw changes no answer. It is false: the converter of a registration that threw
    stays constructed, and a later registration that returns `true` runs it instead of its own function. -/
theorem C83_converter_false : ¬ ∀ (oom : Nat → Bool) (nm : RType → Str), Function.Injective nm → (∀ T, nm T ≠ []) →
    ∀ ops : List RegOp, (∀ op ∈ ops, TypedCall op) → ∀ i op o, (events oom nm ops)[i]? = some (op, .ok o) →
      ConvAnswer (done ((events oom nm ops).take i)) op o := by
  intro h
  have := h (fun k => k == 1) Rtti.Ex.rname Rtti.Ex.rname_injective Rtti.Ex.rname_ne
    [.regT Ex.vi Ex.vX 0 10, .regT Ex.vi Ex.vX 0 11, .convertT Ex.vi Ex.vX]
    (by intro op hop; simp only [List.mem_cons, List.not_mem_nil, or_false] at hop; rcases hop with rfl | rfl | rfl <;> trivial)
    2 (.convertT Ex.vi Ex.vX) (.ran (some 10)) (by rfl)
  have e : done ((events (fun k => k == 1) Rtti.Ex.rname
    [.regT Ex.vi Ex.vX 0 10, .regT Ex.vi Ex.vX 0 11, .convertT Ex.vi Ex.vX]).take 2) = [.regT Ex.vi Ex.vX 0 11] := by rfl
  rw [e] at this
  have hsp : SamePair Ex.vi Ex.vX Ex.vi Ex.vX := (samePair_iff).2 ⟨rfl, rfl⟩
  have v1 : ¬ IsVoid Ex.vi.t := by rw [← isVoid_dec]; decide
  have v2 : ¬ IsVoid Ex.vX.t := by rw [← isVoid_dec]; decide
  simp [ConvAnswer, present, firstFn, hsp, v1, v2] at this

/-- Not every failure is an exception: `hasConverter<From, To>()` is `noexcept` and registers its types, so the program ends. -/
theorem C83_has_false : ¬ ∀ (oom : Nat → Bool) (nm : RType → Str), Function.Injective nm → (∀ T, nm T ≠ []) →
    ∀ ops : List RegOp, (∀ op ∈ ops, TypedCall op) → ∀ op, (op, .terminated) ∉ events oom nm ops := by
  intro h
  exact h (fun k => k == 0) Rtti.Ex.rname Rtti.Ex.rname_injective Rtti.Ex.rname_ne [.hasT Ex.vi Ex.vX]
    (by intro op hop; simp only [List.mem_singleton] at hop; subst hop; trivial) (.hasT Ex.vi Ex.vX) (by decide)

/-- A call that threw may have registered a type: asking for the id of `int const&` registers `int` first. -/
theorem C83_decay_false : ¬ ∀ (oom : Nat → Bool) (nm : RType → Str), Function.Injective nm → (∀ T, nm T ≠ []) →
    ∀ ops : List RegOp, (∀ op ∈ ops, TypedCall op) → ∀ i n k, (events oom nm ops)[i]? = some (.lookup n, .ok (.id k)) →
      done ((events oom nm ops).take i) = [] → k = 0 := by
  intro h
  exact absurd (h (fun k => k == 2) Rtti.Ex.rname Rtti.Ex.rname_injective Rtti.Ex.rname_ne
    [.idOf Ex.vci, .lookup (Rtti.Ex.rname Ex.vi)]
    (by intro op hop; simp only [List.mem_cons, List.not_mem_nil, or_false] at hop; rcases hop with rfl | rfl <;> trivial)
    1 (Rtti.Ex.rname Ex.vi) 1 (by rfl) (by rfl)) (by decide)

/-- At exit without memory the program ends in a destructor: the converter of a registration that threw unregisters itself,
    which registers the types that could not be registered before. -/
theorem C83_exit_false : ∃ (oom : Nat → Bool) (ops : List RegOp),
    events oom Rtti.Ex.rname ops = [(.lookup ['i', 'n', 't'], .ok (.id 0)), (.regT Ex.vi Ex.vX 0 10, .threw true), (.destroy, .terminated)] :=
  ⟨fun k => k != 0, [.lookup ['i', 'n', 't'], .regT Ex.vi Ex.vX 0 10, .destroy, .destroy, .destroy], by rfl⟩

/-- ids and converters of a program with failures at every place -/
example : (events (fun k => k == 0 || k == 2 || k == 9) Rtti.Ex.rname
      [.regT Ex.vi Ex.vX 0 10, .idOf Ex.vci, .idOf Ex.vci, .regT Ex.vi Ex.vX 1 11, .regT Ex.vi Ex.vX 1 12, .convertT Ex.vci Ex.vX]) =
    [(.regT Ex.vi Ex.vX 0 10, .threw false), (.idOf Ex.vci, .threw false), (.idOf Ex.vci, .ok (.id 3)),
      (.regT Ex.vi Ex.vX 1 11, .threw true), (.regT Ex.vi Ex.vX 1 12, .ok (.bool true)), (.convertT Ex.vci Ex.vX, .ok (.ran (some 11)))] ∧
    (FReg.init.run (fun k => k == 0 || k == 2 || k == 9) Rtti.Ex.rname
      [.regT Ex.vi Ex.vX 0 10, .idOf Ex.vci, .idOf Ex.vci, .regT Ex.vi Ex.vX 1 11]).1.lost.map (·.decay) = [4, 1] := by
  exact ⟨by decide +kernel, by decide +kernel⟩

/-- known types need no memory: from the seventh allocation on everything fails -/
example : events (fun k => k == 3 || decide (6 ≤ k)) Rtti.Ex.rname
      [.idOf Ex.vi, .idOf Ex.vX, .idOf Ex.vX, .hasT Ex.vi Ex.vX, .convertT Ex.vX Ex.vi, .regT Ex.vi Ex.vX 0 10, .idOf Ex.vX,
        .lookup (Rtti.Ex.rname Ex.vX)] =
    [(.idOf Ex.vi, .ok (.id 1)), (.idOf Ex.vX, .threw false), (.idOf Ex.vX, .ok (.id 3)), (.hasT Ex.vi Ex.vX, .ok (.bool false)),
      (.convertT Ex.vX Ex.vi, .ok (.ran none)), (.regT Ex.vi Ex.vX 0 10, .threw false), (.idOf Ex.vX, .ok (.id 3)),
      (.lookup (Rtti.Ex.rname Ex.vX), .ok (.id 3))] := by decide +kernel

/-! ### base classes -/

/-- What a failing `addBaseClass` leaves: either the world is as it was, or the base class is in the list of this class and
    nothing else has changed. -/
theorem C83_base_left (f : BaseFault) (w : World) (this : Ptr) (t : TypeId) (c : Caster)
    (h : (w.addBaseClassF f this t c).2 = none) :
    (f = .bases ∧ (w.addBaseClassF f this t c).1 = w) ∨
    (f = .derived ∧ ∃ b, w.metaClass t = some b ∧ (w.addBaseClassF f this t c).1 =
      { w with cls := fun p => if p = this then { w.cls this with bases := World.basesAdd (w.cls this).bases t c } else w.cls p }) := by
  unfold World.addBaseClassF at h ⊢
  split at h
  · cases h
  · rename_i hv
    rw [if_neg hv]
    cases hm : w.metaClass t with
    | none => rw [hm] at h; cases h
    | some b =>
      rw [hm] at h
      dsimp only at h ⊢
      split at h
      · rename_i hf
        rw [if_pos hf]
        exact .inl ⟨hf.1, rfl⟩
      · rename_i hf
        rw [if_neg hf]
        split at h
        · rename_i hg
          rw [if_pos hg]
          exact .inr ⟨hg.1, b, rfl, rfl⟩
        · cases h

/-- Repeating the call when there is memory gives exactly the world the undisturbed call gives. -/
theorem C83_base_retry (f : BaseFault) (w : World) (this : Ptr) (t : TypeId) (c : Caster)
    (h : (w.addBaseClassF f this t c).2 = none) :
    (w.addBaseClassF f this t c).1.addBaseClass this t c = w.addBaseClass this t c := by
  rcases C83_base_left f w this t c h with ⟨_, e⟩ | ⟨_, b, hb, e⟩
  · rw [e]
  · have hv : w.valid t = true := by
      unfold World.addBaseClassF at h
      cases hx : w.valid t with
      | true => rfl
      | false => simp [hx] at h
    rw [e]
    have idem : ∀ l : List (TypeId × Caster), World.basesAdd (World.basesAdd l t c) t c = World.basesAdd l t c := by
      intro l
      unfold World.basesAdd
      by_cases hl : (l.any fun it => t == it.1) = true
      · simp [hl]
      · simp [hl]
    unfold World.addBaseClass
    have hv' : ∀ f : Ptr → ClassData, ({ w with cls := f } : World).valid t = w.valid t := fun _ => rfl
    have hm' : ∀ f : Ptr → ClassData, ({ w with cls := f } : World).metaClass = w.metaClass := fun _ => rfl
    rw [hv', hv, hm', hb]
    simp only [Bool.not_true, Bool.false_eq_true, if_false, upd, if_true, idem]
    congr 1
    · congr 1
      funext p
      by_cases hp : p = this <;> simp [upd, hp]

/-- with memory the call is `addBaseClass` -/
theorem C83_base_no_fault (w : World) (this : Ptr) (t : TypeId) (c : Caster) :
    w.addBaseClassF .none this t c = ((w.addBaseClass this t c).1, some (w.addBaseClass this t c).2) := by
  unfold World.addBaseClassF World.addBaseClass
  split
  · rfl
  · cases w.metaClass t with
    | none => rfl
    | some b => simp

/-- When exactly the call fails: when it gets to the allocation that fails, that is when the class registered for the type is not yet in the list that is to grow. Otherwise
    the call is the undisturbed one. -/
theorem C83_base_exact (f : BaseFault) (w : World) (this : Ptr) (t : TypeId) (c : Caster) :
    ((w.addBaseClassF f this t c).2 = none ↔ ∃ b, w.valid t = true ∧ w.metaClass t = some b ∧
      ((f = .bases ∧ t ∉ (w.cls this).bases.map Prod.fst) ∨
       (f = .derived ∧ w.valid (w.cls this).typeId = true ∧ (w.metaClass (w.cls this).typeId).isSome = true ∧
          (w.cls this).typeId ∉ (w.cls b).derived))) ∧
    ((w.addBaseClassF f this t c).2 ≠ none →
      w.addBaseClassF f this t c = ((w.addBaseClass this t c).1, some (w.addBaseClass this t c).2)) := by
  unfold World.addBaseClassF World.addBaseClass
  cases hv : w.valid t with
  | false => simp
  | true =>
    cases hm : w.metaClass t with
    | none => simp
    | some b =>
      have hb : (w.cls this).bases.all (fun x => x.1 != t) = true ↔ t ∉ (w.cls this).bases.map Prod.fst := by
        simp only [List.all_eq_true, List.mem_map, not_exists, not_and, bne_iff_ne]
      have hd : ∀ B, (upd w.cls this { w.cls this with bases := B } b).derived = (w.cls b).derived := by
        intro B
        by_cases hbt : b = this
        · subst hbt; simp [upd]
        · simp [upd, hbt]
      simp only [Bool.not_true, Bool.false_eq_true, if_false, hb]
      cases f with
      | none => simp
      | bases =>
        by_cases h : t ∉ (w.cls this).bases.map Prod.fst
        · rw [if_pos ⟨rfl, h⟩]
          simp [h]
        · rw [if_neg fun x => h x.2]
          simp at h
          simpa using h
      | derived =>
        simp only [reduceCtorEq, false_and, if_false, true_and, upd, if_true]
        have hd' := hd (World.basesAdd (w.cls this).bases t c)
        simp only [upd] at hd'
        simp only [hd', List.contains_eq_mem, decide_eq_false_iff_not]
        split
        · rename_i h
          simp [h]
        · rename_i h
          simp [h]

-- all three: the first allocation fails, the second fails, and a repeated declaration allocates nothing
example : (Ex.diamond.addBaseClassF .bases 5 1 id).2 = none ∧ (Ex.diamond.addBaseClassF .derived 5 1 id).2 = none ∧
    (Ex.diamond.addBaseClassF .bases 5 2 id).2 = some (.val ()) := by decide

/-- The mirror of C26 is false after a call that threw: `d` counts as derived from `b`, but is not among the derived classes
    of `b`. -/
theorem C83_base_false : ∃ (rank : TypeId → Nat) (w : World) (d b : Ptr) (t : TypeId) (c : Caster), Reachable rank w ∧
    Legal rank w (.addBase d t c) ∧ w.kind d = some .cls ∧ w.find t = some b ∧ ¬ DeclaredBase w d b ∧
    let x := w.addBaseClassF .derived d t c
    x.2 = none ∧ DeclaredBase x.1 d b ∧ ¬ ListedDerived x.1 b d := by
  refine ⟨id, Ex.diamond, 5, 2, 1, id, Ex.diamond_reachable, by simp only [Legal]; decide, by decide, by decide, ?_, by decide, ?_, ?_⟩
  · rintro ⟨i, hi, e⟩
    have : i = 0 ∨ i = 1 := by
      have e : Ex.diamond.baseClassCount 5 = 2 := by decide
      omega
    rcases this with rfl | rfl <;> exact absurd e (by decide)
  · exact ⟨2, by decide, by decide⟩
  · rintro ⟨i, hi, e⟩
    have : i = 0 ∨ i = 1 := by
      have e : (Ex.diamond.addBaseClassF .derived 5 1 id).1.derivedClassCount 2 = 2 := by decide
      omega
    rcases this with rfl | rfl <;> exact absurd e (by decide)

end Rtti.Props
