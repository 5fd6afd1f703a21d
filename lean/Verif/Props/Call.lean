import Verif.Props.InvokeEdge
/-! C73: calls from end to end. Every outcome of calling a function by reflection, given directly, with an instance, or by name:
which function runs, on which object, with which parameter bound to what, or how the call fails. -/
set_option autoImplicit false
namespace Rtti.Props
open Rtti Spec Val

/-! ### what a call should do -/

/-- an argument: nothing, an object, or a variant (empty or not) -/
inductive ArgOk (E : Env) (N : Nest) (a : Arg) : Prop
  | missing : a.value.held = none → ArgOk E N a
  | object (u : CType) (x : Addr) : Sound E a.value → Stands a.value u x → (∀ q, u ≠ .base N.vt q) → u.pointerArity < 65536 → ArgOk E N a
  | variant (q : CV) (x : Addr) (u : CType) (y : Addr) : Fine E a.value → Stands a.value (.base N.vt q) x → Sound E (N.inner x) →
      Stands (N.inner x) u y → u.pointerArity < 65536 → ArgOk E N a
  | emptyVariant (q : CV) (x : Addr) : Fine E a.value → Stands a.value (.base N.vt q) x → (N.inner x).held = none → ArgOk E N a

/-- the parameter wants to modify or move from what it refers to -/
def Modifies (p : RType) : Prop := p.ref = .rref ∨ (p.ref = .lref ∧ ¬IsConst p.t)

/-- every outcome of passing the argument `a` for the parameter `p` -/
inductive Passed (E : Env) (N : Nest) (a : Arg) (p : RType) (R : Ret Bound) : Prop
  | missing : a.value.held = none → R = .throw .badArgumentCast → Passed E N a p R
  | object (u : CType) (x : Addr) : Stands a.value u x → (∀ q, u ≠ .base N.vt q) → Binding E a.value u a.rvalue p R → Passed E N a p R
  /-- what a variant stands for is passed on, but a const variant gives nothing to modify -/
  | constVariant (q : CV) (x : Addr) : Stands a.value (.base N.vt q) x → q.c = true → Modifies p → R = .throw .badVariantCast → Passed E N a p R
  | variant (q : CV) (x : Addr) (u : CType) (y : Addr) : Stands a.value (.base N.vt q) x → ¬(q.c = true ∧ Modifies p) →
      Stands (N.inner x) u y → Binding E (N.inner x) u a.rvalue p R → Passed E N a p R
  | emptyConverted (q : CV) (x : Addr) : Stands a.value (.base N.vt q) x → ¬(q.c = true ∧ Modifies p) → (N.inner x).held = none →
      ¬Modifies p ∨ (p.ref = .rref ∧ a.rvalue = true) → R = .throw .badVariantConvert → Passed E N a p R
  | emptyObject (q : CV) (x : Addr) : Stands a.value (.base N.vt q) x → ¬(q.c = true ∧ Modifies p) → (N.inner x).held = none →
      Modifies p → ¬(p.ref = .rref ∧ a.rvalue = true) → R = .throw .badVariantCast → Passed E N a p R

/-- every outcome of passing arguments: the k-th to the k-th parameter, up to the first that fails -/
inductive PassedAll (E : Env) (N : Nest) : List RType → List Arg → Ret (List Bound) → Prop
  | nil : PassedAll E N [] [] (.ok [])
  | cons {p : RType} {ps : List RType} {a : Arg} {as : List Arg} {b : Bound} {bs : List Bound} : Passed E N a p (.ok b) →
      PassedAll E N ps as (.ok bs) → PassedAll E N (p :: ps) (a :: as) (.ok (b :: bs))
  | first {p : RType} {ps : List RType} {a : Arg} {as : List Arg} {R : Ret Bound} {R' : Ret (List Bound)} : Passed E N a p R →
      (∀ b, R ≠ .ok b) → R' = R.bind (fun _ => .ub) → PassedAll E N (p :: ps) (a :: as) R'
  | later {p : RType} {ps : List RType} {a : Arg} {as : List Arg} {b : Bound} {R : Ret (List Bound)} : Passed E N a p (.ok b) →
      PassedAll E N ps as R → (∀ bs, R ≠ .ok bs) → PassedAll E N (p :: ps) (a :: as) R

/-- the arguments before the first missing one -/
def Leading (args given : List Arg) : Prop :=
  ∃ rest, args = given ++ rest ∧ (∀ a ∈ given, a.value.held ≠ none) ∧ (rest = [] ∨ ∃ a r, rest = a :: r ∧ a.value.held = none)

/-- a class, or an array over a class -/
def ClassLike (u : CType) : Prop := Depth u 0 ∧ ∃ b, Over u b ∧ b.kind = .cls

/-- a pointer to a class, or to an array over a class -/
def ClassPtrLike (u : CType) : Prop := Depth u 1 ∧ ∃ b, Over u b ∧ b.kind = .cls

/-- every outcome of `ref<T>` -/
def Referenced (E : Env) (v : Vnt) (u : CType) (at' : Attr) (T : RType) (R : Ret Addr) : Prop :=
  LooksBad E v u (v.type at') T R ∨ ((∀ R' : Ret Bound, ¬LooksBad E v u (v.type at') T R') ∧
    ((∃ a, R = .ok a ∧ RefersTo E v at' T a) ∨ (R = .throw .badVariantCast ∧ ∀ a, ¬RefersTo E v at' T a)))

/-- every outcome of `to<T>` -/
def Taken (E : Env) (v : Vnt) (u : CType) (at' : Attr) (t : CType) (R : Ret Made) : Prop :=
  LooksBad E v u (v.type at') ⟨.none, t⟩ R ∨ ((∀ R' : Ret Bound, ¬LooksBad E v u (v.type at') ⟨.none, t⟩ R') ∧ Gives E v (v.type at') t R)

/-- the object a class pointer points to -/
inductive PointsTo (E : Env) : Made → Obj → Prop
  | stored (a : Addr) : PointsTo E (.copyOf a) (.at (E.load a))
  | subobject (a : Addr) : PointsTo E (.pointer a) (.at a)
  | converted (fn : Nat) (a : Addr) : PointsTo E (.converted fn a) (.made fn a)

/-- how an instance is seen: as const or not -/
def seen (isConst : Bool) : Attr := if isConst then .lrefConst else .lref

/-- every outcome of looking for the object of class `b` to call a function on -/
inductive Found (E : Env) (b : Base) (const isConst : Bool) (v : Vnt) (R : Ret (Option Obj)) : Prop
  | empty : v.held = none → R = .ok none → Found E b const isConst v R
  | other (u : CType) (x : Addr) : Stands v u x → ¬ClassLike u → ¬ClassPtrLike u → R = .ok none → Found E b const isConst v R
  | refused (u : CType) (x : Addr) : Stands v u x → ClassLike u → isConst = true → const = false → R = .throw .badVariantCast →
      Found E b const isConst v R
  | object (u : CType) (x : Addr) (R' : Ret Addr) : Stands v u x → ClassLike u → (isConst = true → const = true) →
      Referenced E v u (seen isConst) ⟨.lref, .base b ⟨const, false⟩⟩ R' → R = R'.bind (fun a => .ok (some (.at a))) → Found E b const isConst v R
  | pointer (u : CType) (x : Addr) (m : Made) (o : Obj) : Stands v u x → ClassPtrLike u →
      Taken E v u (seen isConst) (.ptr ⟨false, false⟩ (.base b ⟨const, false⟩)) (.ok m) → PointsTo E m o → o ≠ .at 0 → R = .ok (some o) →
      Found E b const isConst v R
  | null (u : CType) (x : Addr) (m : Made) : Stands v u x → ClassPtrLike u →
      Taken E v u (seen isConst) (.ptr ⟨false, false⟩ (.base b ⟨const, false⟩)) (.ok m) → PointsTo E m (.at 0) → R = .ub →
      Found E b const isConst v R
  | fails (u : CType) (x : Addr) (R' : Ret Made) : Stands v u x → ClassPtrLike u →
      Taken E v u (seen isConst) (.ptr ⟨false, false⟩ (.base b ⟨const, false⟩)) R' → (∀ m, R' ≠ .ok m) → R = R'.bind (fun _ => .ub) →
      Found E b const isConst v R

/-- every outcome of calling a function that needs no object -/
inductive CallsStatic (E : Env) (N : Nest) (f : Fn) (args : List Arg) (R : Ret Did) : Prop
  | count (given : List Arg) : Leading args given → given.length ≠ f.params.length → R = .throw .invokeError → CallsStatic E N f args R
  | call (given : List Arg) (R' : Ret (List Bound)) : Leading args given → given.length = f.params.length → PassedAll E N f.params given R' →
      R = R'.bind (fun bs => .ok (.called none bs)) → CallsStatic E N f args R

/-- every outcome of calling a member function of class `b`: first the arguments are counted, then the object is looked for, then the
    arguments are passed -/
inductive CallsMember (E : Env) (N : Nest) (f : Fn) (b : Base) (isConst : Bool) (v : Vnt) (args : List Arg) (R : Ret Did) : Prop
  | count (given : List Arg) : Leading args given → given.length ≠ f.params.length → R = .throw .invokeError → CallsMember E N f b isConst v args R
  | nowhere (given : List Arg) (R' : Ret (Option Obj)) : Leading args given → given.length = f.params.length → Found E b f.const isConst v R' →
      (∀ o, R' ≠ .ok (some o)) → R = R'.bind (fun _ => .ok .nothing) → CallsMember E N f b isConst v args R
  | call (given : List Arg) (o : Obj) (R' : Ret (List Bound)) : Leading args given → given.length = f.params.length →
      Found E b f.const isConst v (.ok (some o)) → PassedAll E N f.params given R' → R = R'.bind (fun bs => .ok (.called (some o) bs)) →
      CallsMember E N f b isConst v args R

/-- every outcome of `variant::invoke(name, args...)` -/
inductive CallsNamed (E : Env) (N : Nest) (fn : Ptr → Fn) (i : Inst) (name : Str) (args : List Arg) (R : Ret Did) : Prop
  | null : NullObject E i.v → R = .ub → CallsNamed E N fn i name args R
  | notFound : ¬NullObject E i.v → (∀ d a m, ClassOf E i.v d → Reaches E.w d a → name ≠ [] → ¬OwnMethod E.w name a m) →
      R = .throw .runtimeError → CallsNamed E N fn i name args R
  /-- the instance is passed as the first argument -/
  | static (d m : Ptr) : ¬NullObject E i.v → name ≠ [] → ClassOf E i.v d → Finds E.w (OwnMethod E.w name) d m → (fn m).cls = none →
      CallsStatic E N (fn m) (i.arg :: args) R → CallsNamed E N fn i name args R
  | member (d m : Ptr) (b : Base) : ¬NullObject E i.v → name ≠ [] → ClassOf E i.v d → Finds E.w (OwnMethod E.w name) d m → (fn m).cls = some b →
      CallsMember E N (fn m) b i.isConst i.v args R → CallsNamed E N fn i name args R

/-! ### arguments -/

private theorem isVariant_iff {N : Nest} (hN : N.vt.kind = .cls) {a : Arg} {u : CType} {x : Addr} (st : Stands a.value u x) :
    a.isVariant N = true ↔ ∃ q, u = .base N.vt q := by
  obtain ⟨h, e, hu⟩ := st.held
  have e2 : (h.type .none).t = u := by rw [hu]; rfl
  simp only [Arg.isVariant, e, e2, decide_eq_true_iff]
  cases u with
  | base b q =>
    by_cases hb : b.kind = .func
    · simp [CType.fullDecay, CType.decay, hb, CType.removeAllCv]
      rintro rfl
      rw [hN] at hb; cases hb
    · simp [CType.fullDecay, CType.decay, hb, CType.removeAllCv]
  | ptr q t => simp [CType.fullDecay, CType.decay, CType.removeAllCv]
  | arr n t => simp [CType.fullDecay, CType.decay, CType.removeAllCv]

/-- C73: every outcome of passing one argument, whatever it is. -/
theorem C73_argument {rank : TypeId → Nat} {E : Env} (r : Reachable rank E.w) (N : Nest) (hN : N.vt.kind = .cls) (a : Arg) (ha : ArgOk E N a)
    (p : RType) (hp : ParamOk p) (ht : p.t.pointerArity < 65536) (R : Ret Bound) : a.get E N p = R ↔ Passed E N a p R := by
  cases ha with
  | missing h =>
    have e : a.get E N p = .throw .badArgumentCast := by simp [Arg.get, Arg.empty, h]
    rw [e]
    refine ⟨fun h' => .missing h h'.symm, fun h' => ?_⟩
    cases h' with
    | missing _ h' => exact h'.symm
    | object u x st => exact absurd h (held_of st)
    | constVariant q x st => exact absurd h (held_of st)
    | variant q x u y st => exact absurd h (held_of st)
    | emptyConverted q x st => exact absurd h (held_of st)
    | emptyObject q x st => exact absurd h (held_of st)
  | object u x sd st hu ha =>
    have hv : a.isVariant N = false := by
      cases h : a.isVariant N with
      | false => rfl
      | true => obtain ⟨q, e⟩ := (isVariant_iff hN st).1 h; exact absurd e (hu q)
    rw [C46_outcome_exact r N a hv sd st p hp ha ht R]
    refine ⟨fun h => .object u x st hu h, fun h' => ?_⟩
    cases h' with
    | missing h => exact absurd h (held_of st)
    | object u' x' st' _ h => obtain ⟨rfl, rfl⟩ := st.unique st'; exact h
    | constVariant q x' st' => exact absurd (st.unique st').1 (hu q)
    | variant q x' u y st' => exact absurd (st.unique st').1 (hu q)
    | emptyConverted q x' st' => exact absurd (st.unique st').1 (hu q)
    | emptyObject q x' st' => exact absurd (st.unique st').1 (hu q)
  | variant q x u y f st sd si hu =>
    obtain ⟨h1, h2⟩ := C46_variant_exact r N a f st hN sd si p hp hu ht R
    by_cases hc : q.c = true ∧ Modifies p
    · rw [h1 hc]
      refine ⟨fun h => .constVariant q x st hc.1 hc.2 h.symm, fun h' => ?_⟩
      cases h' with
      | missing h => exact absurd h (held_of st)
      | object u' x' st' hu' => exact absurd (st.unique st').1.symm (hu' q)
      | constVariant q' x' st' _ _ h => exact h.symm
      | variant q' x' u' y' st' hn => have := (st.unique st').1; cases this; exact absurd hc hn
      | emptyConverted q' x' st' hn => have := (st.unique st').1; cases this; exact absurd hc hn
      | emptyObject q' x' st' hn => have := (st.unique st').1; cases this; exact absurd hc hn
    · rw [h2 hc]
      refine ⟨fun h => .variant q x u y st hc si h, fun h' => ?_⟩
      cases h' with
      | missing h => exact absurd h (held_of st)
      | object u' x' st' hu' => exact absurd (st.unique st').1.symm (hu' q)
      | constVariant q' x' st' h3 h4 => have := (st.unique st').1; cases this; exact absurd ⟨h3, h4⟩ hc
      | variant q' x' u' y' st' hn si' h =>
        obtain ⟨h3, h4⟩ := st.unique st'
        cases h3; cases h4
        obtain ⟨rfl, rfl⟩ := si.unique si'
        exact h
      | emptyConverted q' x' st' hn he => obtain ⟨h3, h4⟩ := st.unique st'; cases h4; exact absurd he (held_of si)
      | emptyObject q' x' st' hn he => obtain ⟨h3, h4⟩ := st.unique st'; cases h4; exact absurd he (held_of si)
  | emptyVariant q x f st he =>
    obtain ⟨h1, h2⟩ := C46_empty_variant_argument r N a f st hN he p hp
    have key : (p.ref = .none ∨ (p.ref = .lref ∧ IsConst p.t) ∨ (p.ref = .rref ∧ a.rvalue = true ∧ q.c = false)) ↔
        ¬(q.c = true ∧ Modifies p) ∧ (¬Modifies p ∨ (p.ref = .rref ∧ a.rvalue = true)) := by
      unfold Modifies
      cases hr : p.ref <;> cases hq : q.c <;> by_cases hc : IsConst p.t <;> cases a.rvalue <;> simp [hc]
    rw [key] at h1
    constructor
    · rintro rfl
      by_cases hc : q.c = true ∧ Modifies p
      · refine .constVariant q x st hc.1 hc.2 ?_
        rcases h2 with h | h
        · exact absurd hc (h1.1 h).1
        · exact h
      · by_cases hm : ¬Modifies p ∨ (p.ref = .rref ∧ a.rvalue = true)
        · exact .emptyConverted q x st hc he hm (h1.2 ⟨hc, hm⟩)
        · rw [not_or, Classical.not_not] at hm
          refine .emptyObject q x st hc he hm.1 hm.2 ?_
          rcases h2 with h | h
          · rcases (h1.1 h).2 with h | h
            · exact absurd hm.1 h
            · exact absurd h hm.2
          · exact h
    · have bad : ¬(¬(q.c = true ∧ Modifies p) ∧ (¬Modifies p ∨ (p.ref = .rref ∧ a.rvalue = true))) → a.get E N p = .throw .badVariantCast := by
        intro hn
        rcases h2 with h | h
        · exact absurd (h1.1 h) hn
        · exact h
      intro h'
      cases h' with
      | missing h => exact absurd h (held_of st)
      | object u' x' st' hu' => exact absurd (st.unique st').1.symm (hu' q)
      | constVariant q' x' st' h3 h4 h => have := (st.unique st').1; cases this; rw [h]; exact bad fun x => x.1 ⟨h3, h4⟩
      | variant q' x' u' y' st' hn si' h => obtain ⟨h3, h4⟩ := st.unique st'; cases h4; exact absurd he (held_of si')
      | emptyConverted q' x' st' hn he' hm h => have := (st.unique st').1; cases this; rw [h]; exact h1.2 ⟨hn, hm⟩
      | emptyObject q' x' st' hn he' hm hr h =>
        have := (st.unique st').1; cases this
        rw [h]
        exact bad fun x => x.2.elim (fun y => y hm) hr

/-- C73: every outcome of passing arguments to parameters. -/
theorem C73_arguments {rank : TypeId → Nat} {E : Env} (r : Reachable rank E.w) (N : Nest) (hN : N.vt.kind = .cls) (ps : List RType)
    (hp : ∀ p ∈ ps, ParamOk p ∧ p.t.pointerArity < 65536) (as rest : List Arg) (ha : ∀ a ∈ as, ArgOk E N a) (hl : as.length = ps.length)
    (R : Ret (List Bound)) : getAll E N ps (as ++ rest) = R ↔ PassedAll E N ps as R := by
  induction ps generalizing as R with
  | nil =>
    obtain rfl : as = [] := by cases as <;> simp_all
    constructor
    · rintro rfl; exact .nil
    · intro h; cases h; rfl
  | cons p ps ih =>
    cases as with
    | nil => simp at hl
    | cons a as =>
      have h1 := C73_argument r N hN a (ha a (by simp)) p (hp p (by simp)).1 (hp p (by simp)).2
      have h2 := ih (fun p h => hp p (by simp [h])) as (fun a h => ha a (by simp [h])) (by simpa using hl)
      simp only [List.cons_append, getAll]
      constructor
      · rintro rfl
        cases hg : a.get E N p with
        | ok b =>
          cases hs : getAll E N ps (as ++ rest) with
          | ok bs => exact .cons ((h1 _).1 hg) ((h2 _).1 hs)
          | throw e => exact .later ((h1 _).1 hg) ((h2 _).1 hs) nofun
          | terminate => exact .later ((h1 _).1 hg) ((h2 _).1 hs) nofun
          | ub => exact .later ((h1 _).1 hg) ((h2 _).1 hs) nofun
          | diverge => exact .later ((h1 _).1 hg) ((h2 _).1 hs) nofun
        | throw e => exact .first ((h1 _).1 hg) nofun rfl
        | terminate => exact .first ((h1 _).1 hg) nofun rfl
        | ub => exact .first ((h1 _).1 hg) nofun rfl
        | diverge => exact .first ((h1 _).1 hg) nofun rfl
      · intro h
        cases h with
        | cons g1 g2 => rw [(h1 _).2 g1, Ret.bind, (h2 _).2 g2]; rfl
        | first g1 g2 g3 =>
          rw [(h1 _).2 g1, g3]
          rename_i R'
          cases R' <;> first | rfl | exact absurd rfl (g2 _)
        | later g1 g2 g3 =>
          rw [(h1 _).2 g1, Ret.bind, (h2 _).2 g2]
          cases R <;> first | rfl | exact absurd rfl (g3 _)

/-! ### the object -/

private theorem baseType_over (u : CType) : Over u u.baseType := by
  induction u with
  | base b q => exact .base b q
  | ptr q t ih => exact .ptr q ih
  | arr n t ih => exact .arr n ih

private theorem over_baseType {u : CType} {b : Base} (h : Over u b) : u.baseType = b := by
  induction h with
  | base => rfl
  | ptr q _ ih => simpa [CType.baseType] using ih
  | arr n _ ih => simpa [CType.baseType] using ih

private theorem classLike_iff (u : CType) : ClassLike u ↔ u.baseType.kind = .cls ∧ u.isPointer = false := by
  unfold ClassLike
  rw [depth_iff]
  have : (∃ b, Over u b ∧ b.kind = .cls) ↔ u.baseType.kind = .cls :=
    ⟨fun ⟨b, h, hb⟩ => by rw [over_baseType h]; exact hb, fun h => ⟨_, baseType_over u, h⟩⟩
  rw [this, and_comm]
  refine and_congr_right fun _ => ?_
  cases u <;> simp [CType.pointerArity, CType.isPointer]

private theorem classPtrLike_iff (u : CType) (hu : u.pointerArity < 65536) :
    ClassPtrLike u ↔ (u.pointerArity % 65536 = 1 ∧ u.baseType.kind = .cls) ∧ u.isPointer = true := by
  unfold ClassPtrLike
  rw [depth_iff, Nat.mod_eq_of_lt hu]
  have : (∃ b, Over u b ∧ b.kind = .cls) ↔ u.baseType.kind = .cls :=
    ⟨fun ⟨b, h, hb⟩ => by rw [over_baseType h]; exact hb, fun h => ⟨_, baseType_over u, h⟩⟩
  rw [this]
  cases u <;> simp [CType.pointerArity, CType.isPointer, eq_comm]

private theorem referenced_iff {rank : TypeId → Nat} {E : Env} (r : Reachable rank E.w) {v : Vnt} (sd : Sound E v) {u : CType} {a₀ : Addr}
    (st : Stands v u a₀) (acc : Access) (t : CType) (hta : ∀ n e, t ≠ .arr n e) (hu : u.pointerArity < 65536) (ht : t.pointerArity < 65536)
    (R : Ret Addr) : reference E v acc t = R ↔ Referenced E v u acc.attr (acc.target t) R := by
  have h := reference_steps r sd st acc t hta hu ht
  have tr : ∀ {A B : Type} {R : Ret A}, LooksBad E v u (v.type acc.attr) (acc.target t) R → ∃ R' : Ret B, LooksBad E v u (v.type acc.attr) (acc.target t) R' := by
    rintro A B R (⟨_, h⟩ | ⟨_, h⟩)
    · exact ⟨.ub, .inl ⟨rfl, h⟩⟩
    · exact ⟨.terminate, .inr ⟨rfl, h⟩⟩
  constructor
  · rintro rfl
    rcases h with ⟨h, _⟩ | ⟨h1, ⟨a, h2, h3, _⟩ | ⟨h2, h3⟩⟩
    · exact .inl h
    · exact .inr ⟨h1, .inl ⟨a, h2, h3⟩⟩
    · exact .inr ⟨h1, .inr ⟨h2, h3⟩⟩
  · rintro (h' | ⟨h1', h2'⟩)
    · rcases h with ⟨h, _⟩ | ⟨h1, _⟩
      · exact h.unique h'
      · obtain ⟨R', h''⟩ := tr (B := Bound) h'; exact absurd h'' (h1 _)
    · rcases h with ⟨h, _⟩ | ⟨h1, h2⟩
      · obtain ⟨R', h''⟩ := tr (B := Bound) h; exact absurd h'' (h1' _)
      · rcases h2 with ⟨a, e, h3, _⟩ | ⟨e, h3⟩ <;> rcases h2' with ⟨a', rfl, h3'⟩ | ⟨rfl, h3'⟩
        · rw [e, refersTo_unique r sd h3 h3']
        · exact absurd h3 (h3' _)
        · exact absurd h3' (h3 _)
        · exact e

private theorem taken_iff {rank : TypeId → Nat} {E : Env} (r : Reachable rank E.w) {v : Vnt} (sd : Sound E v) {u : CType} {a₀ : Addr}
    (st : Stands v u a₀) (const : Bool) (t : CType) (hta : ∀ n e, t ≠ .arr n e) (htf : ∀ b q, t = .base b q → b.kind ≠ .func)
    (R : Ret Made) : to E v const t = R ↔ Taken E v u (seen const) t R := by
  have h := C43_to_exact r sd st const t hta htf R
  simp only at h
  unfold seen Taken LooksBad
  rw [h]
  constructor
  · rintro (h | h | ⟨h1, h2, h3⟩)
    · exact .inl (.inl h)
    · exact .inl (.inr h)
    · exact .inr ⟨fun R' h => h.elim (fun h => h1 h.2) (fun h => h2 h.2), h3⟩
  · rintro ((h | h) | ⟨h1, h2⟩)
    · exact .inl h
    · exact .inr (.inl h)
    · exact .inr (.inr ⟨fun x => h1 _ (.inl ⟨rfl, x⟩), fun x => h1 _ (.inr ⟨rfl, x⟩), h2⟩)

private theorem pointsTo_iff (E : Env) (m : Made) (o : Obj) : PointsTo E m o ↔ pointee E m = o := by
  constructor
  · intro h; cases h <;> rfl
  · rintro rfl; cases m <;> constructor

/-- C73: every outcome of looking for the object a member function is to run on. -/
theorem C73_object {rank : TypeId → Nat} {E : Env} (r : Reachable rank E.w) (v : Vnt) (hv : v.held = none ∨ Sound E v ∧ ∃ u x, Stands v u x ∧ u.pointerArity < 65536)
    (b : Base) (const isConst : Bool) (R : Ret (Option Obj)) : object E b const isConst v = R ↔ Found E b const isConst v R := by
  rcases hv with h | ⟨sd, u, x, st, hu⟩
  · have e : object E b const isConst v = .ok none := by unfold object; rw [if_pos h]
    rw [e]
    refine ⟨fun h' => .empty h h'.symm, fun h' => ?_⟩
    cases h' with
    | empty _ h => exact h.symm
    | other u x st => exact absurd h (held_of st)
    | refused u x st => exact absurd h (held_of st)
    | object u x R' st => exact absurd h (held_of st)
    | pointer u x m o st => exact absurd h (held_of st)
    | null u x m st => exact absurd h (held_of st)
    | fails u x R' st => exact absurd h (held_of st)
  · have hcl := isClass_iff st
    rw [← classLike_iff] at hcl
    have hcp := isClassPtr_iff st
    rw [← classPtrLike_iff u hu] at hcp
    have excl : ClassLike u → ClassPtrLike u → False := fun h h' => by
      have h1 := (depth_iff _ _).1 h.1
      have h2 := (depth_iff _ _).1 h'.1
      omega
    by_cases c1 : ClassLike u
    · have e : object E b const isConst v = if isConst && !const then .throw .badVariantCast
          else (reference E v (if isConst then .refConst else .ref) (.base b ⟨const, false⟩)).bind fun a => .ok (some (.at a)) := by
        unfold object
        rw [if_neg (held_of st), if_pos (hcl.2 c1)]
      rw [e]
      by_cases hc : isConst = true ∧ const = false
      · obtain ⟨rfl, rfl⟩ := hc
        simp only [Bool.not_false, Bool.and_self, if_true]
        refine ⟨fun h => .refused u x st c1 rfl rfl h.symm, fun h' => ?_⟩
        cases h' with
        | empty h => exact absurd h (held_of st)
        | other u' x' st' h => obtain ⟨rfl, rfl⟩ := st.unique st'; exact absurd c1 h
        | refused _ _ _ _ _ _ h => exact h.symm
        | object _ _ _ _ _ h => cases h rfl
        | pointer u' x' m o st' h => obtain ⟨rfl, rfl⟩ := st.unique st'; exact (excl c1 h).elim
        | null u' x' m st' h => obtain ⟨rfl, rfl⟩ := st.unique st'; exact (excl c1 h).elim
        | fails u' x' R' st' h => obtain ⟨rfl, rfl⟩ := st.unique st'; exact (excl c1 h).elim
      · have hc' : isConst = true → const = true := fun h => by
          cases const with
          | true => rfl
          | false => exact absurd ⟨h, rfl⟩ hc
        have hb : (isConst && !const) = false := by cases isConst <;> cases const <;> simp_all
        rw [hb, if_neg (by simp)]
        have key := referenced_iff r sd st (if isConst then .refConst else .ref) (.base b ⟨const, false⟩) (by simp) hu (by simp [CType.pointerArity])
        have e1 : (if isConst = true then Access.refConst else Access.ref).attr = seen isConst := by cases isConst <;> rfl
        have e2 : (if isConst = true then Access.refConst else Access.ref).target (.base b ⟨const, false⟩) = ⟨.lref, .base b ⟨const, false⟩⟩ := by
          cases isConst
          · rfl
          · rw [hc' rfl]; rfl
        rw [e1, e2] at key
        constructor
        · rintro rfl
          exact .object u x _ st c1 hc' ((key _).1 rfl) rfl
        · intro h'
          cases h' with
          | empty h => exact absurd h (held_of st)
          | other u' x' st' h => obtain ⟨rfl, rfl⟩ := st.unique st'; exact absurd c1 h
          | refused _ _ _ _ h3 h4 => exact absurd ⟨h3, h4⟩ hc
          | object u' x' R' st' _ _ h3 h4 => obtain ⟨rfl, rfl⟩ := st.unique st'; rw [h4, (key _).2 h3]
          | pointer u' x' m o st' h => obtain ⟨rfl, rfl⟩ := st.unique st'; exact (excl c1 h).elim
          | null u' x' m st' h => obtain ⟨rfl, rfl⟩ := st.unique st'; exact (excl c1 h).elim
          | fails u' x' R' st' h => obtain ⟨rfl, rfl⟩ := st.unique st'; exact (excl c1 h).elim
    · by_cases c2 : ClassPtrLike u
      · have e : object E b const isConst v = (to E v isConst (.ptr ⟨false, false⟩ (.base b ⟨const, false⟩))).bind fun m =>
            if pointee E m = .at 0 then .ub else .ok (some (pointee E m)) := by
          unfold object
          rw [if_neg (held_of st), if_neg (fun h => c1 (hcl.1 h)), if_pos (hcp.2 c2)]
        rw [e]
        have key := taken_iff r sd st isConst (.ptr ⟨false, false⟩ (.base b ⟨const, false⟩)) (by simp) (by simp)
        constructor
        · rintro rfl
          cases ht : to E v isConst (.ptr ⟨false, false⟩ (.base b ⟨const, false⟩)) with
          | ok m =>
            by_cases h0 : pointee E m = .at 0
            · exact .null u x m st c2 ((key _).1 ht) ((pointsTo_iff _ _ _).2 h0) (by simp [Ret.bind, h0])
            · exact .pointer u x m _ st c2 ((key _).1 ht) ((pointsTo_iff _ _ _).2 rfl) h0 (by simp [Ret.bind, h0])
          | throw e => exact .fails u x _ st c2 ((key _).1 ht) nofun rfl
          | terminate => exact .fails u x _ st c2 ((key _).1 ht) nofun rfl
          | ub => exact .fails u x _ st c2 ((key _).1 ht) nofun rfl
          | diverge => exact .fails u x _ st c2 ((key _).1 ht) nofun rfl
        · intro h'
          cases h' with
          | empty h => exact absurd h (held_of st)
          | other u' x' st' _ h => obtain ⟨rfl, rfl⟩ := st.unique st'; exact absurd c2 h
          | refused u' x' st' h => obtain ⟨rfl, rfl⟩ := st.unique st'; exact absurd h c1
          | object u' x' R' st' h => obtain ⟨rfl, rfl⟩ := st.unique st'; exact absurd h c1
          | pointer u' x' m o st' _ h3 h4 h5 h6 =>
            obtain ⟨rfl, rfl⟩ := st.unique st'
            rw [(key _).2 h3, h6, Ret.bind, (pointsTo_iff _ _ _).1 h4, if_neg h5]
          | null u' x' m st' _ h3 h4 h5 =>
            obtain ⟨rfl, rfl⟩ := st.unique st'
            rw [(key _).2 h3, h5, Ret.bind, (pointsTo_iff _ _ _).1 h4, if_pos rfl]
          | fails u' x' R' st' _ h3 h4 h5 =>
            obtain ⟨rfl, rfl⟩ := st.unique st'
            rw [(key _).2 h3, h5]
            cases R' <;> first | rfl | exact absurd rfl (h4 _)
      · have e : object E b const isConst v = .ok none := by
          unfold object
          rw [if_neg (held_of st), if_neg (fun h => c1 (hcl.1 h)), if_neg (fun h => c2 (hcp.1 h))]
        rw [e]
        refine ⟨fun h' => .other u x st c1 c2 h'.symm, fun h' => ?_⟩
        cases h' with
        | empty h => exact absurd h (held_of st)
        | other _ _ _ _ _ h => exact h.symm
        | refused u' x' st' h => obtain ⟨rfl, rfl⟩ := st.unique st'; exact absurd h c1
        | object u' x' R' st' h => obtain ⟨rfl, rfl⟩ := st.unique st'; exact absurd h c1
        | pointer u' x' m o st' h => obtain ⟨rfl, rfl⟩ := st.unique st'; exact absurd h c2
        | null u' x' m st' h => obtain ⟨rfl, rfl⟩ := st.unique st'; exact absurd h c2
        | fails u' x' R' st' h => obtain ⟨rfl, rfl⟩ := st.unique st'; exact absurd h c2

/-! ### calls -/

private theorem empty_iff (a : Arg) : a.empty = false ↔ a.value.held ≠ none := by
  simp [Arg.empty]

private theorem empty_iff' (a : Arg) : a.empty = true ↔ a.value.held = none := by
  simp [Arg.empty]

private theorem leading_exists (args : List Arg) : ∃ given, Leading args given := by
  obtain ⟨g, r, e, h1, h2⟩ := split_lead args
  refine ⟨g, r, e, fun a h => (empty_iff a).1 (h1 a h), ?_⟩
  rcases h2 with h | ⟨a, r', e, h⟩
  · exact .inl h
  · exact .inr ⟨a, r', e, (empty_iff' a).1 h⟩

private theorem leading_unique {args g g' : List Arg} (h : Leading args g) (h' : Leading args g') : g = g' := by
  induction args generalizing g g' with
  | nil =>
    obtain ⟨r, e, _⟩ := h
    obtain ⟨r', e', _⟩ := h'
    rw [(List.append_eq_nil_iff.1 e.symm).1, (List.append_eq_nil_iff.1 e'.symm).1]
  | cons a args ih =>
    obtain ⟨r, e, h1, h2⟩ := h
    obtain ⟨r', e', h1', h2'⟩ := h'
    cases g with
    | nil =>
      cases g' with
      | nil => rfl
      | cons b g' =>
        simp at e e'
        rcases h2 with h2 | ⟨c, s, h2, h3⟩
        · rw [h2] at e; cases e
        · rw [h2] at e; simp at e
          exact absurd h3 (by rw [← e.1, e'.1]; exact h1' b (by simp))
    | cons b g =>
      cases g' with
      | nil =>
        simp at e e'
        rcases h2' with h2 | ⟨c, s, h2, h3⟩
        · rw [h2] at e'; cases e'
        · rw [h2] at e'; simp at e'
          exact absurd h3 (by rw [← e'.1, e.1]; exact h1 b (by simp))
      | cons b' g' =>
        simp at e e'
        rw [← e.1, ← e'.1, ih (g := g) (g' := g') ⟨r, e.2, fun x hx => h1 x (by simp [hx]), h2⟩ ⟨r', e'.2, fun x hx => h1' x (by simp [hx]), h2'⟩]

/-- what the check of the number of arguments lets through -/
private theorem pack_leading {args given : List Arg} (hl : args.length ≤ 10) (n : Nat) (hn : n ≤ 10) (h : Leading args given) :
    (given.length = n → ∃ rest, pack n args = .ok (given ++ rest)) ∧ (given.length ≠ n → pack n args = .throw .invokeError) := by
  obtain ⟨k1, k2⟩ := C47_leading args hl n hn
  constructor
  · intro hg
    obtain ⟨rest, e, h1, h2⟩ := h
    obtain ⟨as, hp⟩ := k1.2 ⟨given, rest, e, hg, fun a ha => (empty_iff a).2 (h1 a ha),
      h2.imp_right fun ⟨a, r, e, h⟩ => ⟨a, r, e, (empty_iff' a).2 h⟩⟩
    have hp' : pack n args = .ok (pad args) := by
      unfold pack at hp ⊢
      by_cases h : countDown (pad args) n = 0
      · simp [h]
      · simp [h] at hp
    refine ⟨rest ++ List.replicate (10 - args.length) (⟨false, ⟨none, 0, 0⟩⟩ : Arg), ?_⟩
    rw [hp']
    unfold pad
    rw [List.take_append, List.take_of_length_le hl, List.take_replicate, Nat.min_eq_left (by omega), e]
    simp
  · intro hg
    refine k2 ?_
    rw [k1]
    rintro ⟨g, rest, e, h1, h2, h3⟩
    have : Leading args g := ⟨rest, e, fun a ha => (empty_iff a).1 (h2 a ha), h3.imp_right fun ⟨a, r, e, h⟩ => ⟨a, r, e, (empty_iff' a).1 h⟩⟩
    exact hg (by rw [leading_unique h this]; exact h1)

/-- the function can be registered: at most ten parameters, no arrays or functions -/
def FnOk (f : Fn) : Prop := f.params.length ≤ 10 ∧ ∀ p ∈ f.params, ParamOk p ∧ p.t.pointerArity < 65536

/-- C73: every outcome of calling a static function (or constructor): it is called, with the k-th argument passed to its k-th parameter,
    or the call fails as `CallsStatic` says. -/
theorem C73_static {rank : TypeId → Nat} {E : Env} (r : Reachable rank E.w) (N : Nest) (hN : N.vt.kind = .cls) (f : Fn) (hf : FnOk f)
    (args : List Arg) (hl : args.length ≤ 10) (ha : ∀ a ∈ args, ArgOk E N a) (R : Ret Did) :
    staticInvoke E N f args = R ↔ CallsStatic E N f args R := by
  obtain ⟨given, hg⟩ := leading_exists args
  obtain ⟨p1, p2⟩ := pack_leading hl f.params.length hf.1 hg
  have hag : ∀ a ∈ given, ArgOk E N a := by
    obtain ⟨rest, e, _⟩ := hg
    exact fun a h => ha a (by rw [e]; simp [h])
  by_cases hc : given.length = f.params.length
  · obtain ⟨rest, hp⟩ := p1 hc
    have key := C73_arguments r N hN f.params hf.2 given rest hag hc
    unfold staticInvoke
    rw [hp]
    simp only [Ret.bind]
    constructor
    · rintro rfl
      exact .call given _ hg hc ((key _).1 rfl) rfl
    · intro h
      cases h with
      | count g h1 h2 => rw [leading_unique h1 hg] at h2; exact absurd hc h2
      | call g R' h1 h2 h3 h4 => rw [leading_unique h1 hg] at h3; rw [(key _).2 h3, h4]; rfl
  · have e : staticInvoke E N f args = .throw .invokeError := by unfold staticInvoke; rw [p2 hc]; rfl
    rw [e]
    refine ⟨fun h => .count given hg hc h.symm, fun h => ?_⟩
    cases h with
    | count _ _ _ h => exact h.symm
    | call g R' h1 h2 => rw [leading_unique h1 hg] at h2; exact absurd h2 hc

/-- an instance: empty, or standing for something -/
def InstOk (E : Env) (v : Vnt) : Prop := v.held = none ∨ Sound E v ∧ ∃ u x, Stands v u x ∧ u.pointerArity < 65536

/-- C73: every outcome of calling a member function with an instance. -/
theorem C73_member {rank : TypeId → Nat} {E : Env} (r : Reachable rank E.w) (N : Nest) (hN : N.vt.kind = .cls) (f : Fn) (hf : FnOk f)
    (b : Base) (isConst : Bool) (v : Vnt) (hv : InstOk E v) (args : List Arg) (hl : args.length ≤ 10) (ha : ∀ a ∈ args, ArgOk E N a) (R : Ret Did) :
    memberInvoke E N f b isConst v args = R ↔ CallsMember E N f b isConst v args R := by
  obtain ⟨given, hg⟩ := leading_exists args
  obtain ⟨p1, p2⟩ := pack_leading hl f.params.length hf.1 hg
  have hag : ∀ a ∈ given, ArgOk E N a := by
    obtain ⟨rest, e, _⟩ := hg
    exact fun a h => ha a (by rw [e]; simp [h])
  have ko := C73_object r v hv b f.const isConst
  by_cases hc : given.length = f.params.length
  · obtain ⟨rest, hp⟩ := p1 hc
    have key := C73_arguments r N hN f.params hf.2 given rest hag hc
    unfold memberInvoke
    rw [hp]
    simp only [Ret.bind]
    constructor
    · rintro rfl
      cases ho : object E b f.const isConst v with
      | ok o =>
        cases o with
        | none => exact .nowhere given _ hg hc ((ko _).1 ho) nofun rfl
        | some o => exact .call given o _ hg hc ((ko _).1 ho) ((key _).1 rfl) rfl
      | throw e => exact .nowhere given _ hg hc ((ko _).1 ho) nofun rfl
      | terminate => exact .nowhere given _ hg hc ((ko _).1 ho) nofun rfl
      | ub => exact .nowhere given _ hg hc ((ko _).1 ho) nofun rfl
      | diverge => exact .nowhere given _ hg hc ((ko _).1 ho) nofun rfl
    · intro h
      cases h with
      | count g h1 h2 => rw [leading_unique h1 hg] at h2; exact absurd hc h2
      | nowhere g R' h1 h2 h3 h4 h5 =>
        rw [(ko _).2 h3, h5]
        cases R' with
        | ok o =>
          cases o with
          | none => rfl
          | some o => exact absurd rfl (h4 o)
        | throw e => rfl
        | terminate => rfl
        | ub => rfl
        | diverge => rfl
      | call g o R' h1 h2 h3 h4 h5 => rw [leading_unique h1 hg] at h4; rw [(ko _).2 h3]; dsimp only; rw [(key _).2 h4, h5]; rfl
  · have e : memberInvoke E N f b isConst v args = .throw .invokeError := by unfold memberInvoke; rw [p2 hc]; rfl
    rw [e]
    refine ⟨fun h => .count given hg hc h.symm, fun h => ?_⟩
    cases h with
    | count _ _ _ h => exact h.symm
    | nowhere g R' h1 h2 => rw [leading_unique h1 hg] at h2; exact absurd h2 hc
    | call g o R' h1 h2 => rw [leading_unique h1 hg] at h2; exact absurd h2 hc

/-- C73: every outcome of `variant::invoke(name, args...)`. Static functions get the instance as their first argument. -/
theorem C73_named {rank : TypeId → Nat} {E : Env} (r : Reachable rank E.w) (N : Nest) (hN : N.vt.kind = .cls) (fn : Ptr → Fn) (hf : ∀ m, FnOk (fn m))
    (i : Inst) (hi : InstOk E i.v) (hia : ArgOk E N i.arg) (name : Str) (args : List Arg) (hl : args.length ≤ 9) (ha : ∀ a ∈ args, ArgOk E N a) (R : Ret Did) :
    invokeNamed E N fn i name args = R ↔ CallsNamed E N fn i name args R := by
  by_cases hn : NullObject E i.v
  · rw [(C45_null r N fn (fun _ => .static (.base N.vt ⟨false, false⟩) 0) i name args i.arg hn).1]
    refine ⟨fun h => .null hn h.symm, fun h => ?_⟩
    cases h with
    | null _ h => exact h.symm
    | notFound h => exact absurd hn h
    | static d m h => exact absurd hn h
    | member d m b h => exact absurd hn h
  · by_cases h0 : name = []
    · subst h0
      have e : invokeNamed E N fn i [] args = .throw .runtimeError := (C45_invoke_partial r N fn i args hn ['x'] (by simp)).2.2
      rw [e]
      refine ⟨fun h => .notFound hn (fun _ _ _ _ _ h => absurd rfl h) h.symm, fun h => ?_⟩
      cases h with
      | null h => exact absurd h hn
      | notFound _ _ h => exact h.symm
      | static d m _ h => exact absurd rfl h
      | member d m b _ h => exact absurd rfl h
    · obtain ⟨h1, h2, _⟩ := C45_invoke_partial r N fn i args hn name h0
      have kd : ∀ d, ClassOf E i.v d → E.w.kind d = some .cls := fun d ⟨_, _, _, _, _, _, h⟩ => ((World.Inv.reachable r).find_cls h).1
      have cu : ∀ d d', ClassOf E i.v d → ClassOf E i.v d' → d = d' := fun d d' hd hd' => by
        have := ((C45_class_partial r hn).1 d).2 hd
        rw [((C45_class_partial r hn).1 d').2 hd'] at this
        injection this with this; exact this.symm
      have fu : ∀ d m m', ClassOf E i.v d → Finds E.w (OwnMethod E.w name) d m → Finds E.w (OwnMethod E.w name) d m' → m = m' := fun d m m' hd hm hm' => by
        have k := (C29_methods r (kd d hd) h0).2.1
        have := (k m).2 hm
        rw [(k m').2 hm'] at this
        injection this with this; injection this with this; exact this.symm
      have fe : ∀ d m, ClassOf E i.v d → Finds E.w (OwnMethod E.w name) d m → ¬∀ a m, Reaches E.w d a → ¬OwnMethod E.w name a m := fun d m hd hm hno => by
        have k := C29_methods r (kd d hd) h0
        have := (k.2.1 m).2 hm
        rw [k.2.2.1.2 hno] at this
        cases this
      by_cases hex : ∃ d m, ClassOf E i.v d ∧ Finds E.w (OwnMethod E.w name) d m
      · obtain ⟨d, m, hd, hm⟩ := hex
        rw [h1 d m hd hm]
        have ha' : ∀ a ∈ i.arg :: args, ArgOk E N a := fun a h => by
          rcases List.mem_cons.1 h with rfl | h
          · exact hia
          · exact ha a h
        cases hcls : (fn m).cls with
        | none =>
          have e : methodInvoke E N (fn m) i args = staticInvoke E N (fn m) (i.arg :: args) := by unfold methodInvoke; rw [hcls]
          rw [e]
          have key := C73_static r N hN (fn m) (hf m) (i.arg :: args) (by simp; omega) ha' R
          rw [key]
          refine ⟨fun h => .static d m hn h0 hd hm hcls h, fun h => ?_⟩
          cases h with
          | null h => exact absurd h hn
          | notFound _ h => exact absurd (fun a m hr => h d a m hd hr h0) (fe d m hd hm)
          | static d' m' _ _ hd' hm' _ h => have := cu _ _ hd hd'; subst this; have := fu _ _ _ hd hm hm'; subst this; exact h
          | member d' m' b _ _ hd' hm' hc => have := cu _ _ hd hd'; subst this; have := fu _ _ _ hd hm hm'; subst this; rw [hcls] at hc; cases hc
        | some b =>
          have e : methodInvoke E N (fn m) i args = memberInvoke E N (fn m) b i.isConst i.v args := by unfold methodInvoke; rw [hcls]
          rw [e]
          have key := C73_member r N hN (fn m) (hf m) b i.isConst i.v hi args (by omega) ha R
          rw [key]
          refine ⟨fun h => .member d m b hn h0 hd hm hcls h, fun h => ?_⟩
          cases h with
          | null h => exact absurd h hn
          | notFound _ h => exact absurd (fun a m hr => h d a m hd hr h0) (fe d m hd hm)
          | static d' m' _ _ hd' hm' hc => have := cu _ _ hd hd'; subst this; have := fu _ _ _ hd hm hm'; subst this; rw [hcls] at hc; cases hc
          | member d' m' b' _ _ hd' hm' hc h =>
            have := cu _ _ hd hd'; subst this; have := fu _ _ _ hd hm hm'; subst this
            rw [hcls] at hc; cases hc
            exact h
      · have hno : ∀ d a m, ClassOf E i.v d → Reaches E.w d a → ¬OwnMethod E.w name a m := by
          intro d a m hd hr hm
          obtain ⟨⟨x, hx⟩, k1, k2, _⟩ := C29_methods r (kd d hd) h0
          cases x with
          | none => exact k2.1 hx a m hr hm
          | some m' => exact hex ⟨d, m', hd, (k1 m').1 hx⟩
        rw [h2 hno]
        refine ⟨fun h => .notFound hn (fun d a m hd hr _ => hno d a m hd hr) h.symm, fun h => ?_⟩
        cases h with
        | null h => exact absurd h hn
        | notFound _ _ h => exact h.symm
        | static d m _ _ hd hm => exact absurd ⟨d, m, hd, hm⟩ hex
        | member d m b _ _ hd hm => exact absurd ⟨d, m, hd, hm⟩ hex

/-! ### properties -/

/-- every outcome of `MetaProperty::get` -/
inductive Gets (E : Env) (N : Nest) : Property → Option Vnt → Ret Got → Prop
  | static (t : CType) (x : Addr) : Gets E N (.static t x) none (.ok (.ref (addConst t) ⟨.at x, 0⟩))
  | staticOf (t : CType) (x : Addr) (v : Vnt) : Gets E N (.static t x) (some v) (.throw .invokeError)
  | fieldOfNothing (b : Base) (t : CType) (off : Nat) : Gets E N (.field b t off) none (.throw .invokeError)
  | accessorOfNothing (b : Base) (g s : Fn) : Gets E N (.accessor b g s) none (.throw .invokeError)
  /-- a reference to the member, as const -/
  | field (b : Base) (t : CType) (off : Nat) (v : Vnt) (o : Obj) : Found E b true true v (.ok (some o)) →
      Gets E N (.field b t off) (some v) (.ok (.ref (addConst t) ⟨o, off⟩))
  | noObject (b : Base) (t : CType) (off : Nat) (v : Vnt) : Found E b true true v (.ok none) → Gets E N (.field b t off) (some v) (.ok .empty)
  | noField (b : Base) (t : CType) (off : Nat) (v : Vnt) (R : Ret (Option Obj)) : Found E b true true v R → (∀ o, R ≠ .ok o) →
      Gets E N (.field b t off) (some v) (R.bind fun _ => .ub)
  /-- what the getter returns, called on a const instance -/
  | accessor (b : Base) (g s : Fn) (v : Vnt) (R : Ret Did) : CallsMember E N g b true v [] R →
      Gets E N (.accessor b g s) (some v) (R.bind fun d => .ok (.result d))

/-- C49: every outcome of reading a property. -/
theorem C49_get_exact {rank : TypeId → Nat} {E : Env} (r : Reachable rank E.w) (N : Nest) (hN : N.vt.kind = .cls) (p : Property)
    (hp : ∀ b g s, p = .accessor b g s → FnOk g) (i : Option Vnt) (hi : ∀ v, i = some v → InstOk E v) (R : Ret Got) :
    p.get E N i = R ↔ Gets E N p i R := by
  cases i with
  | none =>
    cases p with
    | static t x => exact ⟨fun h => by subst h; exact .static t x, fun h => by cases h; rfl⟩
    | field b t off => exact ⟨fun h => by subst h; exact .fieldOfNothing b t off, fun h => by cases h; rfl⟩
    | accessor b g s => exact ⟨fun h => by subst h; exact .accessorOfNothing b g s, fun h => by cases h; rfl⟩
  | some v =>
    cases p with
    | static t x => exact ⟨fun h => by subst h; exact .staticOf t x v, fun h => by cases h; rfl⟩
    | field b t off =>
      have key := C73_object r v (hi v rfl) b true true
      constructor
      · rintro rfl
        simp only [Property.get]
        cases ho : object E b true true v with
        | ok o =>
          cases o with
          | none => exact .noObject b t off v ((key _).1 ho)
          | some o => exact .field b t off v o ((key _).1 ho)
        | throw e => exact .noField b t off v _ ((key _).1 ho) nofun
        | terminate => exact .noField b t off v _ ((key _).1 ho) nofun
        | ub => exact .noField b t off v _ ((key _).1 ho) nofun
        | diverge => exact .noField b t off v _ ((key _).1 ho) nofun
      · intro h
        cases h with
        | field _ _ _ _ o h => simp only [Property.get]; rw [(key _).2 h]; rfl
        | noObject _ _ _ _ h => simp only [Property.get]; rw [(key _).2 h]; rfl
        | noField _ _ _ _ R' h hn =>
          simp only [Property.get]; rw [(key _).2 h]
          cases R' <;> first | rfl | exact absurd rfl (hn _)
    | accessor b g s =>
      have key := C73_member r N hN g (hp b g s rfl) b true v (hi v rfl) [] (by simp) (by simp)
      constructor
      · rintro rfl
        exact .accessor b g s v _ ((key _).1 rfl)
      · intro h
        cases h with
        | accessor _ _ _ _ R' h => simp only [Property.get]; rw [(key _).2 h]

/-- every outcome of making the new value -/
inductive NewValue (E : Env) (N : Nest) (t : CType) (a : Arg) (R : Ret Made) : Prop
  | value (m : Made) : Passed E N a ⟨.none, t⟩ (.ok (.value m)) → R = .ok m → NewValue E N t a R
  | fails (R' : Ret Bound) : Passed E N a ⟨.none, t⟩ R' → (∀ b, R' ≠ .ok b) → R = R'.bind (fun _ => .ub) → NewValue E N t a R

private theorem newValue_iff {rank : TypeId → Nat} {E : Env} (r : Reachable rank E.w) (N : Nest) (hN : N.vt.kind = .cls) (t : CType)
    (ht : ParamOk ⟨.none, t⟩ ∧ t.pointerArity < 65536) (a : Arg) (ha : ArgOk E N a) (R : Ret Made) : newValue E N t a = R ↔ NewValue E N t a R := by
  have key := C73_argument r N hN a ha ⟨.none, t⟩ ht.1 ht.2
  have val : ∀ b, a.get E N ⟨.none, t⟩ = .ok b → ∃ m, b = .value m := by
    intro b h
    unfold Arg.get at h
    split at h
    · cases h
    · cases hr : a.resolve E N false <;> simp only [hr, Ret.bind] at h <;> try cases h
      rename_i v
      cases ht : to E v true t.decay <;> simp only [ht] at h <;> try cases h
      exact ⟨_, rfl⟩
  unfold newValue
  constructor
  · rintro rfl
    cases hg : a.get E N ⟨.none, t⟩ with
    | ok b =>
      obtain ⟨m, rfl⟩ := val b hg
      exact .value m ((key _).1 hg) rfl
    | throw e => exact .fails _ ((key _).1 hg) nofun rfl
    | terminate => exact .fails _ ((key _).1 hg) nofun rfl
    | ub => exact .fails _ ((key _).1 hg) nofun rfl
    | diverge => exact .fails _ ((key _).1 hg) nofun rfl
  · intro h
    cases h with
    | value m h e => rw [(key _).2 h, e]; rfl
    | fails R' h hn e =>
      rw [(key _).2 h, e]
      cases R' <;> first | rfl | exact absurd rfl (hn _)

/-- an instance with an object to assign to, or a pointer to one -/
def Assignable (v : Vnt) : Prop := ∃ u x, Stands v u x ∧ (ClassLike u ∨ ClassPtrLike u)

/-- every outcome of `MetaProperty::set` -/
inductive Sets (E : Env) (N : Nest) (a : Arg) : Property → Option (Bool × Vnt) → Ret Wrote → Prop
  | static (t : CType) (x : Addr) (m : Made) : ¬IsConst t → NewValue E N t a (.ok m) → Sets E N a (.static t x) none (.ok (.assigned ⟨.at x, 0⟩ m))
  | staticFails (t : CType) (x : Addr) (R : Ret Made) : ¬IsConst t → NewValue E N t a R → (∀ m, R ≠ .ok m) →
      Sets E N a (.static t x) none (R.bind fun _ => .ub)
  | staticConst (t : CType) (x : Addr) : IsConst t → Sets E N a (.static t x) none (.throw .invokeError)
  | staticOf (t : CType) (x : Addr) (i : Bool × Vnt) : Sets E N a (.static t x) (some i) (.throw .invokeError)
  | fieldOfNothing (b : Base) (t : CType) (off : Nat) : Sets E N a (.field b t off) none (.throw .invokeError)
  | accessorOfNothing (b : Base) (g s : Fn) : Sets E N a (.accessor b g s) none (.throw .invokeError)
  | fieldConst (b : Base) (t : CType) (off : Nat) (i : Bool × Vnt) : IsConst t → Sets E N a (.field b t off) (some i) (.throw .invokeError)
  | noObject (b : Base) (t : CType) (off : Nat) (isConst : Bool) (v : Vnt) : ¬IsConst t → ¬Assignable v →
      Sets E N a (.field b t off) (some (isConst, v)) (.ok .nothing)
  /-- an object in a const variant -/
  | refused (b : Base) (t : CType) (off : Nat) (v : Vnt) (u : CType) (x : Addr) : ¬IsConst t → Stands v u x → ClassLike u →
      Sets E N a (.field b t off) (some (true, v)) (.throw .badVariantCast)
  | valueFails (b : Base) (t : CType) (off : Nat) (isConst : Bool) (v : Vnt) (u : CType) (x : Addr) (R : Ret Made) : ¬IsConst t → Stands v u x →
      (ClassLike u ∧ isConst = false ∨ ClassPtrLike u) → NewValue E N t a R → (∀ m, R ≠ .ok m) →
      Sets E N a (.field b t off) (some (isConst, v)) (R.bind fun _ => .ub)
  | objectFails (b : Base) (t : CType) (off : Nat) (isConst : Bool) (v : Vnt) (u : CType) (x : Addr) (m : Made) (R : Ret (Option Obj)) : ¬IsConst t →
      Stands v u x → (ClassLike u ∧ isConst = false ∨ ClassPtrLike u) → NewValue E N t a (.ok m) → Found E b false isConst v R →
      (∀ o, R ≠ .ok o) → Sets E N a (.field b t off) (some (isConst, v)) (R.bind fun _ => .ub)
  | field (b : Base) (t : CType) (off : Nat) (isConst : Bool) (v : Vnt) (u : CType) (x : Addr) (m : Made) (o : Obj) : ¬IsConst t →
      Stands v u x → (ClassLike u ∧ isConst = false ∨ ClassPtrLike u) → NewValue E N t a (.ok m) → Found E b false isConst v (.ok (some o)) →
      Sets E N a (.field b t off) (some (isConst, v)) (.ok (.assigned ⟨o, off⟩ m))
  | accessor (b : Base) (g s : Fn) (isConst : Bool) (v : Vnt) (R : Ret Did) : CallsMember E N s b isConst v [a] R →
      Sets E N a (.accessor b g s) (some (isConst, v)) (R.bind fun d => .ok (.called d))

/-- C49: every outcome of writing a property. -/
theorem C49_set_exact {rank : TypeId → Nat} {E : Env} (r : Reachable rank E.w) (N : Nest) (hN : N.vt.kind = .cls) (p : Property) (a : Arg) (ha : ArgOk E N a)
    (hs : ∀ t x, p = .static t x → ParamOk ⟨.none, t⟩ ∧ t.pointerArity < 65536)
    (hf : ∀ b t off, p = .field b t off → ParamOk ⟨.none, t⟩ ∧ t.pointerArity < 65536)
    (hp : ∀ b g s, p = .accessor b g s → FnOk s) (i : Option (Bool × Vnt)) (hi : ∀ c v, i = some (c, v) → InstOk E v) (R : Ret Wrote) :
    p.set E N i a = R ↔ Sets E N a p i R := by
  have nc : ∀ {t : CType}, t.isConst = false → ¬IsConst t := fun h h' => by rw [(isConst_iff _).2 h'] at h; cases h
  have cn : ∀ {t : CType}, ¬IsConst t → t.isConst = false := fun {t} h => by
    cases h' : t.isConst with
    | false => rfl
    | true => exact absurd ((isConst_iff _).1 h') h
  cases i with
  | none =>
    cases p with
    | static t x =>
      have key := newValue_iff r N hN t (hs t x rfl) a ha
      constructor
      · rintro rfl
        simp only [Property.set]
        cases hc : t.isConst with
        | true => exact .staticConst t x ((isConst_iff _).1 hc)
        | false =>
          simp only [Bool.false_eq_true, if_false]
          cases hv : newValue E N t a with
          | ok m => exact .static t x m (nc hc) ((key _).1 hv)
          | throw e => exact .staticFails t x _ (nc hc) ((key _).1 hv) nofun
          | terminate => exact .staticFails t x _ (nc hc) ((key _).1 hv) nofun
          | ub => exact .staticFails t x _ (nc hc) ((key _).1 hv) nofun
          | diverge => exact .staticFails t x _ (nc hc) ((key _).1 hv) nofun
      · intro h
        simp only [Property.set]
        cases h with
        | static _ _ m hc h => rw [if_neg (by simp [cn hc]), (key _).2 h]; rfl
        | staticFails _ _ R' hc h hn =>
          rw [if_neg (by simp [cn hc]), (key _).2 h]
          cases R' <;> first | rfl | exact absurd rfl (hn _)
        | staticConst _ _ hc => rw [if_pos ((isConst_iff _).2 hc)]
    | field b t off => exact ⟨fun h => by subst h; exact .fieldOfNothing b t off, fun h => by cases h; rfl⟩
    | accessor b g s => exact ⟨fun h => by subst h; exact .accessorOfNothing b g s, fun h => by cases h; rfl⟩
  | some iv =>
    obtain ⟨isConst, v⟩ := iv
    cases p with
    | static t x => exact ⟨fun h => by subst h; exact .staticOf t x _, fun h => by cases h; rfl⟩
    | accessor b g s =>
      have key := C73_member r N hN s (hp b g s rfl) b isConst v (hi _ v rfl) [a] (by simp) (by simpa using ha)
      constructor
      · rintro rfl
        exact .accessor b g s isConst v _ ((key _).1 rfl)
      · intro h
        cases h with
        | accessor _ _ _ _ _ R' h => simp only [Property.set]; rw [(key _).2 h]
    | field b t off =>
      have kv := newValue_iff r N hN t (hf b t off rfl) a ha
      have ko := C73_object r v (hi _ v rfl) b false isConst
      cases hc : t.isConst with
      | true =>
        have e : (Property.field b t off).set E N (some (isConst, v)) a = .throw .invokeError := by simp [Property.set, hc]
        have hc' := (isConst_iff _).1 hc
        rw [e]
        refine ⟨fun h => by subst h; exact .fieldConst b t off _ hc', fun h => ?_⟩
        cases h with
        | fieldConst => rfl
        | noObject _ _ _ _ _ h => exact absurd hc' h
        | refused _ _ _ _ _ _ h => exact absurd hc' h
        | valueFails _ _ _ _ _ _ _ _ h => exact absurd hc' h
        | objectFails _ _ _ _ _ _ _ _ _ h => exact absurd hc' h
        | field _ _ _ _ _ _ _ _ _ h => exact absurd hc' h
      | false =>
        have hn := nc hc
        rcases hi _ v rfl with h0 | ⟨sd, u, x, st, hu⟩
        · have e : (Property.field b t off).set E N (some (isConst, v)) a = .ok .nothing := by simp [Property.set, hc, h0]
          have na : ¬Assignable v := fun ⟨_, _, st, _⟩ => held_of st h0
          rw [e]
          refine ⟨fun h => by subst h; exact .noObject b t off _ v hn na, fun h => ?_⟩
          cases h with
          | fieldConst _ _ _ _ h => exact absurd h hn
          | noObject => rfl
          | refused _ _ _ _ _ _ _ st => exact absurd h0 (held_of st)
          | valueFails _ _ _ _ _ _ _ _ _ st => exact absurd h0 (held_of st)
          | objectFails _ _ _ _ _ _ _ _ _ _ st => exact absurd h0 (held_of st)
          | field _ _ _ _ _ _ _ _ _ _ st => exact absurd h0 (held_of st)
        · have hcl := isClass_iff st
          rw [← classLike_iff] at hcl
          have hcp := isClassPtr_iff st
          rw [← classPtrLike_iff u hu] at hcp
          have excl : ClassLike u → ClassPtrLike u → False := fun h h' => by
            have h1 := (depth_iff _ _).1 h.1
            have h2 := (depth_iff _ _).1 h'.1
            omega
          by_cases hA : ClassLike u ∧ isConst = true
          · have e : (Property.field b t off).set E N (some (isConst, v)) a = .throw .badVariantCast := by
              simp [Property.set, hc, held_of st, hcl.2 hA.1, hA.2]
            obtain ⟨hA, rfl⟩ := hA
            rw [e]
            refine ⟨fun h => by subst h; exact .refused b t off v u x hn st hA, fun h => ?_⟩
            have no : ∀ {u' : CType} {x' : Addr}, Stands v u' x' → (ClassLike u' ∧ true = false ∨ ClassPtrLike u') → False := by
              rintro u' x' st' (⟨_, h⟩ | h)
              · cases h
              · obtain ⟨rfl, rfl⟩ := st.unique st'; exact excl hA h
            cases h with
            | fieldConst _ _ _ _ h => exact absurd h hn
            | noObject _ _ _ _ _ _ h => exact absurd ⟨u, x, st, .inl hA⟩ h
            | refused => rfl
            | valueFails _ _ _ _ _ _ _ _ _ st' h => exact (no st' h).elim
            | objectFails _ _ _ _ _ _ _ _ _ _ st' h => exact (no st' h).elim
            | field _ _ _ _ _ _ _ _ _ _ st' h => exact (no st' h).elim
          · by_cases hB : ClassLike u ∧ isConst = false ∨ ClassPtrLike u
            · have e : (Property.field b t off).set E N (some (isConst, v)) a =
                  (newValue E N t a).bind fun m => (object E b false isConst v).bind fun o =>
                    match o with
                    | none => .ok .nothing
                    | some o => .ok (.assigned ⟨o, off⟩ m) := by
                rcases hB with ⟨h1, h2⟩ | h1
                · simp [Property.set, hc, held_of st, hcl.2 h1, h2]; rfl
                · have : (describe (v.type .none)).isClass = false := by
                    cases h : (describe (v.type .none)).isClass with
                    | false => rfl
                    | true => exact (excl (hcl.1 h) h1).elim
                  simp [Property.set, hc, held_of st, hcp.2 h1, this]; rfl
              have some' : ∀ o, object E b false isConst v = .ok o → ∃ o', o = some o' := by
                intro o ho
                cases o with
                | some o => exact ⟨o, rfl⟩
                | none =>
                  have := (ko _).1 ho
                  cases this with
                  | empty h => exact absurd h (held_of st)
                  | other u' x' st' n1 n2 =>
                    obtain ⟨rfl, rfl⟩ := st.unique st'
                    rcases hB with h | h
                    · exact absurd h.1 n1
                    · exact absurd h n2
                  | refused _ _ _ _ _ _ h => cases h
                  | object _ _ R' _ _ _ _ h => cases R' <;> simp [Ret.bind] at h
                  | pointer _ _ _ _ _ _ _ _ _ h => cases h
                  | null _ _ _ _ _ _ _ h => cases h
                  | fails _ _ R' _ _ _ _ h => cases R' <;> simp [Ret.bind] at h
              rw [e]
              constructor
              · rintro rfl
                cases hv : newValue E N t a with
                | ok m =>
                  simp only [Ret.bind]
                  cases ho : object E b false isConst v with
                  | ok o =>
                    obtain ⟨o, rfl⟩ := some' o ho
                    exact .field b t off _ v u x m o hn st hB ((kv _).1 hv) ((ko _).1 ho)
                  | throw e => exact .objectFails b t off _ v u x m _ hn st hB ((kv _).1 hv) ((ko _).1 ho) nofun
                  | terminate => exact .objectFails b t off _ v u x m _ hn st hB ((kv _).1 hv) ((ko _).1 ho) nofun
                  | ub => exact .objectFails b t off _ v u x m _ hn st hB ((kv _).1 hv) ((ko _).1 ho) nofun
                  | diverge => exact .objectFails b t off _ v u x m _ hn st hB ((kv _).1 hv) ((ko _).1 ho) nofun
                | throw e => exact .valueFails b t off _ v u x _ hn st hB ((kv _).1 hv) nofun
                | terminate => exact .valueFails b t off _ v u x _ hn st hB ((kv _).1 hv) nofun
                | ub => exact .valueFails b t off _ v u x _ hn st hB ((kv _).1 hv) nofun
                | diverge => exact .valueFails b t off _ v u x _ hn st hB ((kv _).1 hv) nofun
              · intro h
                cases h with
                | fieldConst _ _ _ _ h => exact absurd h hn
                | noObject _ _ _ _ _ _ h => exact absurd ⟨u, x, st, hB.imp_left (·.1)⟩ h
                | refused _ _ _ _ u' x' _ st' h => obtain ⟨rfl, rfl⟩ := st.unique st'; exact absurd ⟨h, rfl⟩ hA
                | valueFails _ _ _ _ _ _ _ R' _ _ _ h h' =>
                  rw [(kv _).2 h]
                  cases R' <;> first | rfl | exact absurd rfl (h' _)
                | objectFails _ _ _ _ _ _ _ m R' _ _ _ h h' hn' =>
                  rw [(kv _).2 h, Ret.bind, (ko _).2 h']
                  cases R' <;> first | rfl | exact absurd rfl (hn' _)
                | field _ _ _ _ _ _ _ m o _ _ _ h h' => rw [(kv _).2 h, Ret.bind, (ko _).2 h']; rfl
            · have n1 : ¬ClassLike u := fun h => by
                cases isConst with
                | true => exact hA ⟨h, rfl⟩
                | false => exact hB (.inl ⟨h, rfl⟩)
              have n2 : ¬ClassPtrLike u := fun h => hB (.inr h)
              have f1 : (describe (v.type .none)).isClass = false := by
                cases h : (describe (v.type .none)).isClass with
                | false => rfl
                | true => exact absurd (hcl.1 h) n1
              have f2 : (describe (v.type .none)).isClassPtr = false := by
                cases h : (describe (v.type .none)).isClassPtr with
                | false => rfl
                | true => exact absurd (hcp.1 h) n2
              have e : (Property.field b t off).set E N (some (isConst, v)) a = .ok .nothing := by
                simp [Property.set, hc, held_of st, f1, f2]
              have na : ¬Assignable v := by
                rintro ⟨u', x', st', h⟩
                obtain ⟨rfl, rfl⟩ := st.unique st'
                exact h.elim n1 n2
              rw [e]
              refine ⟨fun h => by subst h; exact .noObject b t off _ v hn na, fun h => ?_⟩
              cases h with
              | fieldConst _ _ _ _ h => exact absurd h hn
              | noObject => rfl
              | refused _ _ _ _ u' x' _ st' h => exact absurd ⟨u', x', st', .inl h⟩ na
              | valueFails _ _ _ _ _ u' x' _ _ st' h => exact absurd ⟨u', x', st', h.imp_left (·.1)⟩ na
              | objectFails _ _ _ _ _ u' x' _ _ _ st' h => exact absurd ⟨u', x', st', h.imp_left (·.1)⟩ na
              | field _ _ _ _ _ u' x' _ _ _ st' h => exact absurd ⟨u', x', st', h.imp_left (·.1)⟩ na

/-! ### what that means -/

private theorem passedAll_ok {E : Env} {N : Nest} {ps : List RType} {as : List Arg} {bs : List Bound} (h : PassedAll E N ps as (.ok bs)) :
    bs.length = ps.length ∧ as.length = ps.length ∧ ∀ (k : Nat) p a b, ps[k]? = some p → as[k]? = some a → bs[k]? = some b → Passed E N a p (.ok b) := by
  generalize hR : Ret.ok bs = R at h
  induction h generalizing bs with
  | nil => cases hR; simp
  | cons h1 h2 ih =>
    cases hR
    obtain ⟨i1, i2, i3⟩ := ih rfl
    refine ⟨by simp [i1], by simp [i2], fun k p a b e1 e2 e3 => ?_⟩
    cases k with
    | zero => simp at e1 e2 e3; subst e1; subst e2; subst e3; exact h1
    | succ k => simp at e1 e2 e3; exact i3 k p a b e1 e2 e3
  | first h1 h2 h3 => rename_i R' _; cases R' <;> simp [Ret.bind] at h3 <;> first | (rw [h3] at hR; cases hR) | exact absurd rfl (h2 _)
  | later h1 h2 h3 ih => exact absurd hR.symm (h3 _)

/-- C73: if a member function called by name runs, it is the one the class of the complete object has or inherits under the name, it
    runs on an object found as `Found` says, and each of its parameters is bound to the argument in the same place. (Partial: a null
    object is undefined behaviour, and a static function gets the instance as its first argument, `C73_static_by_name_false`.) -/
theorem C73_runs_partial {rank : TypeId → Nat} {E : Env} (r : Reachable rank E.w) (N : Nest) (hN : N.vt.kind = .cls) (fn : Ptr → Fn) (hf : ∀ m, FnOk (fn m))
    (i : Inst) (hi : InstOk E i.v) (hia : ArgOk E N i.arg) (name : Str) (args : List Arg) (hl : args.length ≤ 9) (ha : ∀ a ∈ args, ArgOk E N a)
    (o : Obj) (bs : List Bound) (h : invokeNamed E N fn i name args = .ok (.called (some o) bs)) :
    ∃ d m b, ClassOf E i.v d ∧ Finds E.w (OwnMethod E.w name) d m ∧ (fn m).cls = some b ∧
      Found E b (fn m).const i.isConst i.v (.ok (some o)) ∧ bs.length = (fn m).params.length ∧
      ∀ (k : Nat) p a b', (fn m).params[k]? = some p → args[k]? = some a → bs[k]? = some b' → Passed E N a p (.ok b') := by
  have h' := (C73_named r N hN fn hf i hi hia name args hl ha _).1 h
  cases h' with
  | null _ h => cases h
  | notFound _ _ h => cases h
  | static d m _ _ _ _ _ h =>
    cases h with
    | count _ _ _ h => cases h
    | call g R' _ _ _ h => cases R' <;> simp [Ret.bind] at h
  | member d m b _ _ hd hm hc h =>
    cases h with
    | count _ _ _ h => cases h
    | nowhere g R' _ _ _ _ h => cases R' <;> simp [Ret.bind] at h
    | call g o' R' hg hlen ho hp h =>
      cases R' with
      | ok bs' =>
        simp [Ret.bind] at h
        obtain ⟨rfl, rfl⟩ := h
        obtain ⟨k1, k2, k3⟩ := passedAll_ok hp
        refine ⟨d, m, b, hd, hm, hc, ho, k1, fun k p a b' e1 e2 e3 => k3 k p a b' e1 ?_ e3⟩
        obtain ⟨rest, e, _⟩ := hg
        have hk : k < g.length := by rw [k2]; exact (List.getElem?_eq_some_iff.1 e1).1
        rwa [e, List.getElem?_append_left hk] at e2
      | throw _ => cases h
      | terminate => cases h
      | ub => cases h
      | diverge => cases h

open ExV ExI in
/-- C73 is false for static functions called by name: with `static void s(int)` registered as a method of the class,
    `v.invoke("s", 5)` is refused (one argument too many), `v.invoke("s")` tries to pass the object itself for the `int`, and
    `static void s(B &)` can be called without arguments, on the object. -/
theorem C73_static_by_name_false :
    let i : Inst := ⟨false, vD, makeArg 800 (.obj true (cls vt) 8000)⟩
    let N : Nest := ⟨vt, fun a => if a = 8000 then vD else ⟨none, 0, 0⟩⟩
    let one : Ptr → Fn := fun _ => ⟨none, false, [⟨.none, Ex.int⟩], none⟩
    let obj : Ptr → Fn := fun _ => ⟨none, false, [⟨.lref, cls B⟩], none⟩
    staticInvoke env N (one 6) [anInt] = .ok (.called none [.value (.copyOf 710)]) ∧
    invokeNamed env N one i (nm "f") [anInt] = .throw .invokeError ∧
    invokeNamed env N one i (nm "f") [] = .throw .badVariantConvert ∧
    invokeNamed env N obj i (nm "f") [] = .ok (.called none [.object 5000]) := by decide +kernel

/-- C73: what the returned variant is: empty for `void`; for a reference it stands for the object referred to, as const as the function
    returns it; otherwise it has an object of its own of the type returned (functions return no arrays), or is the variant the function
    returned. `self` and `ptr` are the variant's storage, `x` what a returned reference refers to. -/
theorem C73_result (N : Nest) (f : Fn) (self ptr x : Addr) :
    (f.result = none ↔ f.returns N = .empty) ∧
    (f.returns N = .result ↔ ∃ q, f.result = some ⟨.none, .base N.vt q⟩) ∧
    (∀ ref t, f.result = some ⟨ref, t⟩ → ref ≠ .none → ∃ h, f.returns N = .holds h ∧ Stands ⟨some h, self, x⟩ t x) ∧
    (∀ t, f.result = some ⟨.none, t⟩ → (∀ n e, t ≠ .arr n e) → (∀ q, t ≠ .base N.vt q) → ∃ h, f.returns N = .holds h ∧
      ∃ a, Stands ⟨some h, self, ptr⟩ t.removeCv a ∧ (a = self ∨ a = ptr)) := by
  have base : ∀ t : CType, t.removeCv = .base N.vt ⟨false, false⟩ ↔ ∃ q, t = .base N.vt q := by
    intro t
    cases t with
    | base b q => simp [CType.removeCv]
    | ptr => simp [CType.removeCv]
    | arr => simp [CType.removeCv]
  refine ⟨?_, ?_, fun ref t h hr => ?_, fun t h ha hv => ?_⟩
  · unfold Fn.returns
    rcases f.result with _ | ⟨r, t⟩
    · simp
    · cases r <;> simp
      split <;> simp
  · unfold Fn.returns
    rcases f.result with _ | ⟨r, t⟩
    · simp
    · cases r with
      | none =>
        by_cases h : t.removeCv = .base N.vt ⟨false, false⟩
        · obtain ⟨q, rfl⟩ := (base t).1 h
          simp [h]
        · simp only [h, if_false]
          refine ⟨fun h => by simp at h, ?_⟩
          rintro ⟨q, e⟩
          cases e
          exact absurd rfl h
      | lref => simp
      | rref => simp
  · refine ⟨⟨true, t⟩, ?_, .ref t rfl⟩
    unfold Fn.returns
    rw [h]
    cases ref <;> first | rfl | exact absurd rfl hr
  · have hn : ¬t.removeCv = .base N.vt ⟨false, false⟩ := fun h => by
      obtain ⟨q, e⟩ := (base t).1 h
      exact hv q e
    refine ⟨⟨false, t⟩, by simp [Fn.returns, h, hn], ?_⟩
    by_cases hs : t.sizeOf ≤ 16
    · exact ⟨self, .inPlace t rfl ha hs, .inl rfl⟩
    · exact ⟨ptr, .heap t rfl ha (by omega), .inr rfl⟩

open ExV ExI in
example : (⟨none, false, [], some ⟨.none, .base nest.vt ⟨true, false⟩⟩⟩ : Fn).returns nest = .result ∧
    (⟨none, false, [], some ⟨.lref, .base nest.vt ⟨true, false⟩⟩⟩ : Fn).returns nest = .holds ⟨true, .base nest.vt ⟨true, false⟩⟩ ∧
    (⟨none, false, [], some ⟨.none, cls D⟩⟩ : Fn).returns nest = .holds ⟨false, cls D⟩ ∧
    (⟨none, false, [], none⟩ : Fn).returns nest = .empty := by decide +kernel

open ExV ExI in
/-- `d.g(i)` by name: found in the second base, runs on that subobject; the hypotheses hold -/
example : let six : Arg := makeArg 2000 (.obj true Ex.int 6000)
    FnOk f6 ∧ FnOk f9 ∧ InstOk env vD ∧ ArgOk env nest six ∧ ArgOk env nest ⟨false, vD⟩ ∧ nest.vt.kind = .cls ∧
    invokeNamed env nest fns (inst vD) (nm "g") [six] = .ok (.called (some (.at 5008)) [.value (.copyOf 6000)]) ∧
    invokeNamed env nest fns (inst vD) (nm "g") [] = .throw .invokeError := by
  intro six
  have sI : Stands six.value Ex.int 6000 := .ref _ rfl
  refine ⟨⟨by decide, nofun⟩, ⟨by decide, fun p hp => ?_⟩, .inr ⟨soundD, _, _, standsD, by decide⟩,
    .object _ _ ⟨by decide, by decide +kernel, fun t a s => ?_, fun b q a s => ?_⟩ sI (by intro q h; cases h) (by decide),
    .object _ _ soundD standsD (by intro q h; cases h) (by decide), rfl, by decide +kernel⟩
  · simp [f9] at hp; subst hp
    exact ⟨⟨fun n e h => (by cases h), fun b q h => (by cases h; decide)⟩, by decide⟩
  · rw [(s.unique sI).2]; decide
  · have := (s.unique sI).1; cases this; decide

open ExV ExI in
/-- setting and reading `p` through a `D *`; a const variant is refused, a `D const` too -/
example : InstOk env vPD ∧ ParamOk ⟨.none, Ex.int⟩ ∧
    field.set env nest (some (true, vPD)) anInt = .ok (.assigned ⟨.at 5000, 4⟩ (.copyOf 710)) ∧
    field.set env nest (some (true, vD)) anInt = .throw .badVariantCast ∧ field.set env nest (some (false, vCD)) anInt = .throw .badVariantCast ∧
    field.get env nest (some vCD) = .ok (.ref (.base Ex.intB ⟨true, false⟩) ⟨.at 5000, 4⟩) :=
  ⟨.inr ⟨soundPD, _, _, standsPD, by decide⟩, ⟨fun n e h => (by cases h), fun b q h => (by cases h; decide)⟩, by decide +kernel⟩

end Rtti.Props
