import Verif.Spec.Invoke
import Verif.Props.Value
set_option autoImplicit false
namespace Rtti.Val
open Rtti Spec Props

theorem decay_param {p : RType} (h : ParamOk p) : p.t.decay = p.t.removeCv := by
  obtain ⟨h1, h2⟩ := h
  cases ht : p.t with
  | base b q => simp [CType.decay, CType.removeCv, h2 b q ht]
  | ptr q t => rfl
  | arr n e => exact absurd ht (h1 n e)

theorem removeCv_param {p : RType} (h : ParamOk p) : (∀ n e, p.t.removeCv ≠ .arr n e) ∧ (∀ b q, p.t.removeCv = .base b q → b.kind ≠ .func) := by
  obtain ⟨h1, h2⟩ := h
  cases ht : p.t with
  | base b q => exact ⟨by simp [CType.removeCv], fun b' q' e => by cases e; exact h2 b q ht⟩
  | ptr q t => exact ⟨by simp [CType.removeCv], by simp [CType.removeCv]⟩
  | arr n e => exact absurd ht (h1 n e)

theorem reference_cases {rank : TypeId → Nat} {E : Env} (r : Reachable rank E.w) {v : Vnt} (f : Fine E v) (acc : Access) {t : CType} (ht : Shallow t) :
    (∃ a, reference E v acc t = .ok a ∧ RefersTo E v acc.attr (acc.target t) a ∧ a ≠ 0) ∨
    (reference E v acc t = .throw .badVariantCast ∧ ∀ a, ¬RefersTo E v acc.attr (acc.target t) a) := by
  obtain ⟨sd, ⟨u, a₀, st, hu⟩, hn⟩ := f
  obtain ⟨h, e, rfl⟩ := st.held
  have hh : Shallow h.t := by unfold Shallow at *; rwa [← u_arity]
  unfold reference RefersTo
  rw [vtype e]
  rcases metafuncCast_spec r sd e acc.attr (acc.target t) hh (shallow_target ht) with ⟨_, h2, _⟩ | ⟨a, h1, h2, h3, h4⟩ | ⟨h1, h2⟩
  · exact absurd h2 hn
  · exact .inl ⟨a, h1, ⟨h2, h3⟩, h4⟩
  · refine .inr ⟨h1, fun a ⟨g1, g2⟩ => ?_⟩
    rcases h2 with h2 | h2
    · exact h2 g1
    · exact h2 a g2

theorem data_cases {rank : TypeId → Nat} {E : Env} (r : Reachable rank E.w) {v : Vnt} (f : Fine E v) (const : Bool) {t : CType} (ht : Shallow t) :
    (∃ a, data E v const t = .ok a ∧ a ≠ 0 ∧
      RefersTo E v (if const then .lrefConst else .lref) ⟨.lref, if const then addConst t else t⟩ a) ∨
    (data E v const t = .ok 0 ∧ ∀ a, ¬RefersTo E v (if const then .lrefConst else .lref) ⟨.lref, if const then addConst t else t⟩ a) := by
  unfold data
  rcases reference_cases r f (if const then .refConst else .ref) ht with ⟨a, h1, h2, h3⟩ | ⟨h1, h2⟩ <;> rw [h1]
  · exact .inl ⟨a, rfl, h3, by cases const <;> exact h2⟩
  · exact .inr ⟨rfl, by cases const <;> exact h2⟩

theorem to_gives {rank : TypeId → Nat} {E : Env} (r : Reachable rank E.w) {v : Vnt} (f : Fine E v) (const : Bool) {t : CType} (ht : Shallow t)
    (hta : ∀ n e, t ≠ .arr n e) (htf : ∀ b q, t = .base b q → b.kind ≠ .func) :
    Gives E v (v.type (if const then .lrefConst else .lref)) t (to E v const t) := by
  obtain ⟨sd, ⟨u, a₀, st, hu⟩, hn⟩ := f
  exact (C43_to_partial r st hn const t hu ht hta htf _).1 rfl

theorem removeCv_shallow {t : CType} (h : Shallow t) : Shallow t.removeCv := by
  unfold Shallow at *; rwa [removeCv_arity]

/-- binding a parameter, once the variant to look into is known -/
def takeFrom (E : Env) (v : Vnt) (rvalue : Bool) (p : RType) : Ret Bound :=
  match p.ref with
  | .rref =>
    if !rvalue then .throw .badVariantCast
    else (data E v false p.t.removeCv).bind fun x =>
      if x ≠ 0 then .ok (.object x) else (to E v false p.t.removeCv).bind fun m => .ok (.dummy m)
  | .lref =>
    if p.t.isConst then
      (data E v true p.t.removeCv).bind fun x =>
        if x ≠ 0 then .ok (.object x) else (to E v true p.t.removeCv).bind fun m => .ok (.dummy m)
    else if rvalue then .throw .badVariantCast
    else (reference E v .ref p.t.removeCv).bind fun x => .ok (.object x)
  | .none => (to E v true p.t.removeCv).bind fun m => .ok (.value m)

theorem takeFrom_takes {rank : TypeId → Nat} {E : Env} (r : Reachable rank E.w) {v : Vnt} (f : Fine E v) (rv : Bool) (p : RType)
    (hp : ParamOk p) (ht : Shallow p.t) : Takes E v rv p (takeFrom E v rv p) := by
  obtain ⟨ha, hf⟩ := removeCv_param hp
  have hs := removeCv_shallow ht
  unfold takeFrom
  cases hr : p.ref with
  | rref =>
    cases rv with
    | false => exact .rrefLvalue hr rfl
    | true =>
      simp only [Bool.not_true, Bool.false_eq_true, if_false]
      rcases data_cases r f false hs with ⟨a, h1, h2, h3⟩ | ⟨h1, h2⟩ <;> rw [h1] <;> simp only [Ret.bind]
      · rw [if_pos h2]; exact .rref a hr rfl h3
      · simp only [ne_eq, not_true_eq_false, if_false]
        exact .rrefTo _ hr rfl h2 (to_gives r f false hs ha hf)
  | lref =>
    by_cases hc : p.t.isConst = true
    · simp only [hc, if_true]
      have hc' := (isConst_iff _).1 hc
      rcases data_cases r f true hs with ⟨a, h1, h2, h3⟩ | ⟨h1, h2⟩ <;> rw [h1] <;> simp only [Ret.bind]
      · rw [if_pos h2]; exact .cref a hr hc' h3
      · simp only [ne_eq, not_true_eq_false, if_false]
        exact .crefTo _ hr hc' h2 (to_gives r f true hs ha hf)
    · simp only [hc, Bool.false_eq_true, if_false]
      have hc' : ¬IsConst p.t := fun h => hc ((isConst_iff _).2 h)
      cases rv with
      | true => exact .lrefRvalue hr hc' rfl
      | false =>
        simp only [Bool.false_eq_true, if_false]
        rcases reference_cases r f .ref hs with ⟨a, h1, h2, h3⟩ | ⟨h1, h2⟩ <;> rw [h1]
        · exact .lref a hr hc' rfl h2
        · exact .lrefNot hr hc' rfl h2
  | none => exact .value _ hr (to_gives r f true hs ha hf)

theorem refersTo_unique {rank : TypeId → Nat} {E : Env} (r : Reachable rank E.w) {v : Vnt} (sd : Sound E v) {at' : Attr} {T : RType} {a a' : Addr}
    (h : RefersTo E v at' T a) (h' : RefersTo E v at' T a') : a = a' := h.2.unique r sd h'.2

theorem Takes.unique {rank : TypeId → Nat} {E : Env} (r : Reachable rank E.w) {v : Vnt} (sd : Sound E v) {rv : Bool} {p : RType} {R R' : Ret Bound}
    (h : Takes E v rv p R) (h' : Takes E v rv p R') : R = R' := by
  have ab : ∀ {a b : Ref}, p.ref = a → p.ref = b → a ≠ b → R = R' := fun h1 h2 h3 => absurd (h1.symm.trans h2) h3
  have rb : rv = true → rv = false → R = R' := fun h1 h2 => by rw [h1] at h2; cases h2
  cases h with
  | rrefLvalue h1 h2 =>
    cases h' with
    | rrefLvalue => rfl
    | rref a g1 g2 => exact rb g2 h2
    | rrefTo R g1 g2 => exact rb g2 h2
    | cref a g1 => exact ab h1 g1 nofun
    | crefTo R g1 => exact ab h1 g1 nofun
    | lrefRvalue g1 => exact ab h1 g1 nofun
    | lref a g1 => exact ab h1 g1 nofun
    | lrefNot g1 => exact ab h1 g1 nofun
    | value R g1 => exact ab h1 g1 nofun
  | rref a h1 h2 h3 =>
    cases h' with
    | rrefLvalue g1 g2 => exact rb h2 g2
    | rref a' g1 g2 g3 => rw [refersTo_unique r sd h3 g3]
    | rrefTo R g1 g2 g3 => exact absurd h3 (g3 _)
    | cref a g1 => exact ab h1 g1 nofun
    | crefTo R g1 => exact ab h1 g1 nofun
    | lrefRvalue g1 => exact ab h1 g1 nofun
    | lref a g1 => exact ab h1 g1 nofun
    | lrefNot g1 => exact ab h1 g1 nofun
    | value R g1 => exact ab h1 g1 nofun
  | rrefTo R h1 h2 h3 h4 =>
    cases h' with
    | rrefLvalue g1 g2 => exact rb h2 g2
    | rref a' g1 g2 g3 => exact absurd g3 (h3 _)
    | rrefTo R g1 g2 g3 g4 => rw [gives_unique r h4 g4]
    | cref a g1 => exact ab h1 g1 nofun
    | crefTo R g1 => exact ab h1 g1 nofun
    | lrefRvalue g1 => exact ab h1 g1 nofun
    | lref a g1 => exact ab h1 g1 nofun
    | lrefNot g1 => exact ab h1 g1 nofun
    | value R g1 => exact ab h1 g1 nofun
  | cref a h1 h2 h3 =>
    cases h' with
    | cref a g1 g2 g3 => rw [refersTo_unique r sd h3 g3]
    | crefTo R g1 g2 g3 => exact absurd h3 (g3 _)
    | lrefRvalue g1 g2 => exact absurd h2 g2
    | lref a g1 g2 => exact absurd h2 g2
    | lrefNot g1 g2 => exact absurd h2 g2
    | rrefLvalue g1 g2 => exact ab h1 g1 nofun
    | rref a' g1 g2 g3 => exact ab h1 g1 nofun
    | rrefTo R g1 g2 g3 g4 => exact ab h1 g1 nofun
    | value R g1 => exact ab h1 g1 nofun
  | crefTo R h1 h2 h3 h4 =>
    cases h' with
    | cref a g1 g2 g3 => exact absurd g3 (h3 _)
    | crefTo R g1 g2 g3 g4 => rw [gives_unique r h4 g4]
    | lrefRvalue g1 g2 => exact absurd h2 g2
    | lref a g1 g2 => exact absurd h2 g2
    | lrefNot g1 g2 => exact absurd h2 g2
    | rrefLvalue g1 g2 => exact ab h1 g1 nofun
    | rref a' g1 g2 g3 => exact ab h1 g1 nofun
    | rrefTo R g1 g2 g3 g4 => exact ab h1 g1 nofun
    | value R g1 => exact ab h1 g1 nofun
  | lrefRvalue h1 h2 h3 =>
    cases h' with
    | cref a g1 g2 g3 => exact absurd g2 h2
    | crefTo R g1 g2 g3 g4 => exact absurd g2 h2
    | lrefRvalue g1 g2 => rfl
    | lref a g1 g2 g3 => exact rb h3 g3
    | lrefNot g1 g2 g3 => exact rb h3 g3
    | rrefLvalue g1 g2 => exact ab h1 g1 nofun
    | rref a' g1 g2 g3 => exact ab h1 g1 nofun
    | rrefTo R g1 g2 g3 g4 => exact ab h1 g1 nofun
    | value R g1 => exact ab h1 g1 nofun
  | lref a h1 h2 h3 h4 =>
    cases h' with
    | cref a g1 g2 g3 => exact absurd g2 h2
    | crefTo R g1 g2 g3 g4 => exact absurd g2 h2
    | lrefRvalue g1 g2 g3 => exact rb g3 h3
    | lref a g1 g2 g3 g4 => rw [refersTo_unique r sd h4 g4]
    | lrefNot g1 g2 g3 g4 => exact absurd h4 (g4 _)
    | rrefLvalue g1 g2 => exact ab h1 g1 nofun
    | rref a' g1 g2 g3 => exact ab h1 g1 nofun
    | rrefTo R g1 g2 g3 g4 => exact ab h1 g1 nofun
    | value R g1 => exact ab h1 g1 nofun
  | lrefNot h1 h2 h3 h4 =>
    cases h' with
    | cref a g1 g2 g3 => exact absurd g2 h2
    | crefTo R g1 g2 g3 g4 => exact absurd g2 h2
    | lrefRvalue g1 g2 g3 => exact rb g3 h3
    | lref a g1 g2 g3 g4 => exact absurd g4 (h4 _)
    | lrefNot g1 g2 g3 g4 => rfl
    | rrefLvalue g1 g2 => exact ab h1 g1 nofun
    | rref a' g1 g2 g3 => exact ab h1 g1 nofun
    | rrefTo R g1 g2 g3 g4 => exact ab h1 g1 nofun
    | value R g1 => exact ab h1 g1 nofun
  | value R h1 h2 =>
    cases h' with
    | cref a g1 g2 g3 => exact ab h1 g1 nofun
    | crefTo R g1 g2 g3 g4 => exact ab h1 g1 nofun
    | lrefRvalue g1 g2 g3 => exact ab h1 g1 nofun
    | lref a g1 g2 g3 g4 => exact ab h1 g1 nofun
    | lrefNot g1 g2 g3 g4 => exact ab h1 g1 nofun
    | rrefLvalue g1 g2 => exact ab h1 g1 nofun
    | rref a' g1 g2 g3 => exact ab h1 g1 nofun
    | rrefTo R g1 g2 g3 g4 => exact ab h1 g1 nofun
    | value R' g1 g2 => rw [gives_unique r h2 g2]

theorem takeFrom_iff {rank : TypeId → Nat} {E : Env} (r : Reachable rank E.w) {v : Vnt} (f : Fine E v) (rv : Bool) (p : RType)
    (hp : ParamOk p) (ht : Shallow p.t) (R : Ret Bound) : takeFrom E v rv p = R ↔ Takes E v rv p R := by
  have h := takeFrom_takes r f rv p hp ht
  exact ⟨fun e => e ▸ h, fun h' => h.unique r f.sound h'⟩

/-! ### looking into the argument -/

theorem get_plain (E : Env) (N : Nest) (a : Arg) (p : RType) (hp : ParamOk p) (h : a.empty = false) (hv : a.isVariant N = false) :
    a.get E N p = takeFrom E a.value a.rvalue p := by
  unfold Arg.get takeFrom Arg.resolve
  simp only [h, hv, Bool.false_eq_true, if_false, decay_param hp]
  cases p.ref <;> rfl

/-! ### counting -/

theorem countDown_le (l : List Arg) (hl : l.length ≤ 10) (c : Nat) (hc : c < 2 ^ 64) (k : Nat) (given rest : List Arg)
    (h : l = given ++ rest) (hg : ∀ a ∈ given, a.empty = false) (hr : rest = [] ∨ ∃ a r, rest = a :: r ∧ a.empty = true)
    (hk : given.length = k) : countDown l c = (c + k * (2 ^ 64 - 1)) % 2 ^ 64 := by
  induction given generalizing l c k with
  | nil =>
    simp only [List.nil_append] at h
    simp only [List.length_nil] at hk
    subst h hk
    rcases hr with rfl | ⟨a, r, rfl, ha⟩
    · simp [countDown, Nat.mod_eq_of_lt hc]
    · simp [countDown, ha, Nat.mod_eq_of_lt hc]
  | cons g gs ih =>
    subst h hk
    simp only [List.cons_append, countDown, hg g (by simp), Bool.false_eq_true, if_false]
    rw [ih (gs ++ rest) (by simp at hl ⊢; omega) _ (Nat.mod_lt _ (by decide)) gs.length rfl (fun a ha => hg a (by simp [ha])) rfl]
    simp only [List.length_cons, Nat.add_mul]
    omega

/-- the leading arguments present -/
theorem split_lead (l : List Arg) : ∃ given rest, l = given ++ rest ∧ (∀ a ∈ given, a.empty = false) ∧
    (rest = [] ∨ ∃ a r, rest = a :: r ∧ a.empty = true) := by
  induction l with
  | nil => exact ⟨[], [], rfl, by simp, .inl rfl⟩
  | cons a l ih =>
    cases h : a.empty with
    | true => exact ⟨[], a :: l, rfl, by simp, .inr ⟨a, l, rfl, h⟩⟩
    | false =>
      obtain ⟨g, r, e, h1, h2⟩ := ih
      exact ⟨a :: g, r, by simp [e], by simpa [h] using h1, h2⟩

theorem countDown_zero (l : List Arg) (hl : l.length ≤ 10) (n : Nat) (hn : n ≤ 10) :
    countDown l n = 0 ↔ ∃ given rest, l = given ++ rest ∧ given.length = n ∧ (∀ a ∈ given, a.empty = false) ∧
      (rest = [] ∨ ∃ a r, rest = a :: r ∧ a.empty = true) := by
  constructor
  · intro h
    obtain ⟨g, r, e, h1, h2⟩ := split_lead l
    rw [countDown_le l hl n (by omega) _ g r e h1 h2 rfl] at h
    have : g.length ≤ 10 := by rw [e] at hl; simp at hl; omega
    refine ⟨g, r, e, ?_, h1, h2⟩
    omega
  · rintro ⟨g, r, e, h0, h1, h2⟩
    rw [countDown_le l hl n (by omega) _ g r e h1 h2 rfl, h0]
    omega

/-! ### the object -/

theorem held_of {v : Vnt} {u : CType} {a : Addr} (st : Stands v u a) : v.held ≠ none := by
  obtain ⟨h, e, _⟩ := st.held; rw [e]; simp

theorem isClass_of {v : Vnt} {u : CType} {a : Addr} (st : Stands v u a) :
    (describe (v.type .none)).isClass = (decide (u.baseType.kind = .cls) && !u.isPointer) := by
  obtain ⟨h, e, rfl⟩ := st.held
  rw [describe_isClass, vtype e]; rfl

theorem isClassPtr_of {v : Vnt} {u : CType} {a : Addr} (st : Stands v u a) :
    (describe (v.type .none)).isClassPtr = (decide (u.pointerArity % 65536 = 1) && decide (u.baseType.kind = .cls) && u.isPointer) := by
  obtain ⟨h, e, rfl⟩ := st.held
  rw [describe_isClassPtr, vtype e]; rfl

theorem isClass_iff {v : Vnt} {u : CType} {a : Addr} (st : Stands v u a) :
    (describe (v.type .none)).isClass = true ↔ u.baseType.kind = .cls ∧ u.isPointer = false := by
  rw [isClass_of st, Bool.and_eq_true, decide_eq_true_iff, Bool.not_eq_true']

theorem isClassPtr_iff {v : Vnt} {u : CType} {a : Addr} (st : Stands v u a) :
    (describe (v.type .none)).isClassPtr = true ↔ (u.pointerArity % 65536 = 1 ∧ u.baseType.kind = .cls) ∧ u.isPointer = true := by
  rw [isClassPtr_of st, Bool.and_eq_true, Bool.and_eq_true, decide_eq_true_iff, decide_eq_true_iff]

theorem sh_base (b : Base) (q : CV) : Shallow (.base b q) := by simp [Shallow, CType.pointerArity]
theorem sh_ptr (b : Base) (q q' : CV) : Shallow (.ptr q (.base b q')) := by simp [Shallow, CType.pointerArity]

theorem binds_base (b c : Base) (q1 q2 : CV) (hq : q1.c = true → q2.c = true) : Binds ⟨.lref, .base b q1⟩ ⟨.lref, .base c q2⟩ := by
  refine ⟨⟨0, .base _ _, .base _ _⟩, fun _ => .inl rfl, nofun, ?_, ?_⟩
  · intro k s t hs ht _ hc
    cases hs; cases ht
    obtain ⟨c1, v1⟩ := q1
    obtain ⟨c2, v2⟩ := q2
    cases hc
    simp at hq; subst hq
    exact .base _ _
  · intro k s t hs ht _ _ _ j t' hj
    cases hs
    omega

theorem binds_ptr (r : Ref) (b c : Base) (q1 q2 q1' q2' : CV) (hq : q1'.c = true → q2'.c = true) :
    Binds ⟨r, .ptr q1 (.base b q1')⟩ ⟨.none, .ptr q2 (.base c q2')⟩ := by
  refine ⟨⟨1, .ptr _ (.base _ _), .ptr _ (.base _ _)⟩, nofun, nofun, ?_, ?_⟩
  · intro k s t hs ht h0 hc
    cases hs with
    | here => exact absurd rfl (h0 rfl)
    | ptr _ hs =>
      cases ht with | ptr _ ht =>
      cases hs; cases ht
      obtain ⟨c1, v1⟩ := q1'
      obtain ⟨c2, v2⟩ := q2'
      cases hc
      simp at hq; subst hq
      exact .base _ _
  · intro k s t hs ht _ _ _ j t' hj hj0
    cases hs with
    | here => omega
    | ptr _ hs =>
      cases hs
      have : j = 0 := by omega
      exact absurd rfl (hj0 this)

theorem fits_base {v : Vnt} {b : Base} {q : CV} {x : Addr} (st : Stands v (.base b q) x) (acc : Access) (ha : acc = .ref ∨ acc = .refConst)
    (c : Base) (q' : CV) : Fits (v.type acc.attr) (acc.target (.base c q')) ↔ (acc = .ref → q.c = true → q'.c = true) := by
  rw [C42_fits_without_arrays st acc _ (sh_base _ _) (sh_base _ _) (.base _ _) (.base _ _)]
  obtain ⟨h, e, hu⟩ := st.held
  rw [vtype e]
  rcases ha with rfl | rfl <;> simp only [Access.attr, Held.type, ← hu, addConst, Access.target]
  · constructor
    · intro hf _ hq
      obtain ⟨c1, v1⟩ := q
      obtain ⟨c2, v2⟩ := q'
      simp at hq; subst hq
      have := hf.keep 0 _ _ (.here _) (.here _) (by simp) (.base _ _)
      cases this; rfl
    · intro h
      exact binds_base _ _ _ _ (h trivial)
  · refine ⟨fun _ => nofun, fun _ => binds_base _ _ _ _ (fun _ => rfl)⟩

theorem fits_ptr {v : Vnt} {b : Base} {q q₁ : CV} {x : Addr} (st : Stands v (.ptr q (.base b q₁)) x) (const : Bool)
    (c : Base) (q' q₁' : CV) :
    Fits (v.type (if const then .lrefConst else .lref)) ⟨.none, .ptr q' (.base c q₁')⟩ ↔ (q₁.c = true → q₁'.c = true) := by
  obtain ⟨h, e, hu⟩ := st.held
  rw [vtype e, fits_iff_binds]
  · cases const <;> simp only [Held.type, ← hu, addConst, Bool.false_eq_true, if_false, if_true] <;> constructor <;>
      first
      | (intro hf hq
         obtain ⟨c1, v1⟩ := q₁
         obtain ⟨c2, v2⟩ := q₁'
         simp at hq; subst hq
         have := hf.keep 1 _ _ (.ptr _ (.here _)) (.ptr _ (.here _)) (by simp) (.base _ _)
         cases this; rfl)
      | exact fun h => binds_ptr _ _ _ _ _ _ _ h
  · unfold Shallow; rw [type_arity, ← hu]; exact sh_ptr _ _ _
  · exact sh_ptr _ _ _
  · exact type_arrayFree _ (hu ▸ .ptr _ (.base _ _))
  · exact .ptr _ (.base _ _)

/-- a class object -/
theorem object_class {rank : TypeId → Nat} {E : Env} (r : Reachable rank E.w) {v : Vnt} (f : Fine E v) {c : Base} {q : CV} {x : Addr}
    (st : Stands v (.base c q) x) (hc : c.kind = .cls) (b : Base) (hb : b.kind = .cls) (method isConst : Bool) :
    (∀ a, object E b method isConst v = .ok (some (.at a)) ↔
      (method = false → q.c = false ∧ isConst = false) ∧ ((c = b ∧ a = x) ∨ (c ≠ b ∧ Subobject E v b a ∧ a ≠ 0))) ∧
    ((∀ a, object E b method isConst v ≠ .ok (some (.at a))) → object E b method isConst v = .throw .badVariantCast) := by
  have e : object E b method isConst v = if isConst && !method then .throw .badVariantCast else
      (reference E v (if isConst then .refConst else .ref) (.base b ⟨method, false⟩)).bind fun a => .ok (some (.at a)) := by
    unfold object
    rw [if_neg (held_of st), isClass_of st]
    simp [CType.baseType, CType.isPointer, hc]
  rw [e]
  by_cases hm : (isConst && !method) = true
  · rw [if_pos hm]
    simp only [Bool.and_eq_true, Bool.not_eq_true'] at hm
    refine ⟨fun a => ⟨nofun, ?_⟩, fun _ => rfl⟩
    rintro ⟨h, _⟩
    have := (h hm.2).2
    rw [hm.1] at this; cases this
  rw [if_neg hm]
  have h1 := C42_reference_partial r f.sound st f.null (if isConst then .refConst else .ref) (.base b ⟨method, false⟩) (sh_base _ _) (sh_base _ _)
  rw [fits_base st _ (by cases isConst <;> simp)] at h1
  have hR : ∀ a, Refers E v (.base b ⟨method, false⟩) a ↔ ((c = b ∧ a = x) ∨ (c ≠ b ∧ Subobject E v b a ∧ a ≠ 0)) := by
    intro a
    constructor
    · intro h
      cases h with
      | same u a st' hd _ =>
        obtain ⟨rfl, rfl⟩ := st.unique st'
        exact .inl ⟨(sameDecay_base hc).1 hd, rfl⟩
      | decayed n e a st' => obtain ⟨e', _⟩ := st.unique st'; cases e'
      | sub b' c' q' r' x' a st' _ _ hne et hs h0 =>
        obtain ⟨e', rfl⟩ := st.unique st'
        cases e'; cases et
        exact .inr ⟨hne, hs, h0⟩
      | subPtr b' c' q' q'' r' r'' x' a st' => obtain ⟨e', _⟩ := st.unique st'; cases e'
    · rintro (⟨rfl, rfl⟩ | ⟨hne, hs, h0⟩)
      · exact .same _ _ st ((sameDecay_base hc).2 rfl) (.inl nofun)
      · exact .sub c b q _ x a st hc hb hne rfl hs h0
  refine ⟨fun a => ?_, fun h => ?_⟩
  · have h2 := h1.1 a
    rw [hR a] at h2
    have : (reference E v (if isConst then .refConst else .ref) (.base b ⟨method, false⟩)).bind (fun a => .ok (some (Obj.at a))) = .ok (some (.at a)) ↔
        reference E v (if isConst then .refConst else .ref) (.base b ⟨method, false⟩) = .ok a := by
      cases reference E v (if isConst then .refConst else .ref) (.base b ⟨method, false⟩) <;> simp [Ret.bind]
    rw [this, h2]
    apply and_congr_left'
    cases isConst <;> cases method <;> simp_all
  · rcases reference_cases r f (if isConst then .refConst else .ref) (sh_base b ⟨method, false⟩) with ⟨a, ha, _⟩ | ⟨ha, _⟩
    · exact absurd (by rw [ha]; rfl) (h a)
    · rw [ha]; rfl

/-- pointers are copied without an exception -/
def PtrCopies (E : Env) : Prop := ∀ q t a, E.copyThrows (.ptr q t) a = false

/-- a pointer to a class -/
theorem object_ptr {rank : TypeId → Nat} {E : Env} (r : Reachable rank E.w) {v : Vnt} (f : Fine E v) {c : Base} {q q' : CV} {x : Addr}
    (st : Stands v (.ptr q (.base c q')) x) (hc : c.kind = .cls) (b : Base) (hb : b.kind = .cls) (method isConst : Bool) (a : Addr) (h0 : a ≠ 0) :
    (object E b method isConst v = .ok (some (.at a)) →
      (method = false → q'.c = false) ∧ ((c = b ∧ a = E.load x) ∨ (c ≠ b ∧ Subobject E v b a))) ∧
    (PtrCopies E → (method = false → q'.c = false) ∧ ((c = b ∧ a = E.load x) ∨ (c ≠ b ∧ Subobject E v b a)) →
      object E b method isConst v = .ok (some (.at a))) := by
  have e : object E b method isConst v = (to E v isConst (.ptr ⟨false, false⟩ (.base b ⟨method, false⟩))).bind fun m =>
      if pointee E m = .at 0 then .ub else .ok (some (pointee E m)) := by
    unfold object
    rw [if_neg (held_of st), isClass_of st, isClassPtr_of st]
    simp [CType.baseType, CType.isPointer, hc, CType.pointerArity]
  have hf := fits_ptr st isConst b ⟨false, false⟩ ⟨method, false⟩
  have hd : ∀ at', SameDecay (v.type at').t (.ptr ⟨false, false⟩ (.base b ⟨method, false⟩)) ↔ c = b := by
    intro at'
    obtain ⟨h, e, hu⟩ := st.held
    rw [vtype e, ← fullDecay_iff, type_fullDecay, ← hu, fullDecay_iff, sameDecay_ptr]
  have hP : ∀ y, Place v y → y = x := by
    intro y hy
    cases hy with
    | object u y st' _ => exact (st.unique st').2.symm
    | array n e y st' => obtain ⟨e', _⟩ := st.unique st'; cases e'
  have hto := C43_to_partial r st f.null isConst (.ptr ⟨false, false⟩ (.base b ⟨method, false⟩)) (sh_ptr _ _ _) (sh_ptr _ _ _) (by intro n e h; cases h) (by intro b q h; cases h)
  rw [e]
  constructor
  · intro h
    generalize hg : to E v isConst (.ptr ⟨false, false⟩ (.base b ⟨method, false⟩)) = R at h
    have gv := (hto R).1 hg
    cases gv with
    | same y R hfit hs hp hcp =>
      have := hP y hp; subst this
      rw [hf] at hfit
      refine ⟨fun hm => by cases hq : q'.c with | false => rfl | true => exact absurd (hfit hq) (by simp [hm]), .inl ⟨(hd _).1 hs, ?_⟩⟩
      cases hcp with
      | done =>
        simp only [Ret.bind] at h
        by_cases hz : pointee E (.copyOf y) = Obj.at 0
        · rw [if_pos hz] at h; cases h
        · rw [if_neg hz] at h; cases h; rfl
      | throws => cases h
      | refused => cases h
    | up y R hfit hns hu => obtain ⟨_, _, _, _, _, st', _⟩ := hu; obtain ⟨e', _⟩ := st.unique st'; cases e'
    | upPtr y hfit hns hu =>
      rw [hf] at hfit
      rw [hd] at hns
      obtain ⟨b', c', _, _, _, _, _, st', _, _, hne, et, hs, hy⟩ := hu
      obtain ⟨e', _⟩ := st.unique st'
      cases e'; cases et
      refine ⟨fun hm => by cases hq : q'.c with | false => rfl | true => exact absurd (hfit hq) (by simp [hm]), .inr ⟨hne, ?_⟩⟩
      simp only [Ret.bind] at h
      by_cases hz : pointee E (.pointer y) = Obj.at 0
      · rw [if_pos hz] at h; cases h
      · rw [if_neg hz] at h; cases h; exact hs
    | conv y cv R hnd hp hcv hR =>
      cases hR <;> simp [Ret.bind, pointee] at h
    | none => cases h
  · rintro hpc ⟨hm, hr⟩
    have hfit : Fits (v.type (if isConst then .lrefConst else .lref)) ⟨.none, .ptr ⟨false, false⟩ (.base b ⟨method, false⟩)⟩ := by
      rw [hf]; intro hq; cases method with
      | true => rfl
      | false => rw [hm rfl] at hq; cases hq
    rcases hr with ⟨hcb, ha⟩ | ⟨hcb, hs⟩
    · have hcp : Copies E (.ptr ⟨false, false⟩ (.base b ⟨method, false⟩)) x (.ok (.copyOf x)) :=
        .done (by intro b q h; cases h) (hpc _ _ _)
      rw [(hto _).2 (.same x _ hfit ((hd _).2 hcb) (.object _ _ st (by intro n e h; cases h)) hcp)]
      simp [Ret.bind, pointee, ← ha, h0]
    · rw [(hto _).2 (.upPtr a hfit (fun h => hcb ((hd _).1 h)) ⟨c, b, q, q', _, _, x, st, hc, hb, hcb, rfl, hs, h0⟩)]
      simp [Ret.bind, pointee, h0]

/-- pointers to non-class objects, pointers to pointers, arrays: nothing to run on -/
theorem object_none {E : Env} {v : Vnt} {u : CType} {x : Addr} (st : Stands v u x) (hu : Shallow u) (hn : NoObject v)
    (b : Base) (method isConst : Bool) : object E b method isConst v = .ok none := by
  have hO : ∀ {t : CType} {b : Base}, Over t b → t.baseType = b := by
    intro t b h; induction h with
    | base => rfl
    | ptr q _ ih => simpa [CType.baseType] using ih
    | arr n _ ih => simpa [CType.baseType] using ih
  have hD : ∀ {t : CType} {d : Nat}, Depth t d → t.pointerArity = d := by
    intro t d h; induction h with
    | base => rfl
    | arr => rfl
    | ptr q _ ih => simp [CType.pointerArity, ih]
  unfold object
  rw [if_neg (held_of st), isClass_of st, isClassPtr_of st]
  rcases hn u x st with ⟨b', ho, hk⟩ | ⟨d, hd⟩
  · rw [hO ho]; simp [hk]
  · have h1 := hD hd
    unfold Shallow at hu
    have h2 : u.isPointer = true := by cases hd; rfl
    have h3 : ¬(u.pointerArity % 65536 = 1) := by omega
    simp [h2, h3]

/-- an argument made from an object that is no pointer -/
theorem arg_fine {E : Env} {self x : Addr} {b : Base} {q : CV} (hb : b.kind ≠ .func) (hself : self ≠ 0) (hw : E.load self = x) (hx : x ≠ 0)
    {v : Vnt} (hv : v = ⟨some ⟨true, .base b q⟩, self, x⟩) : Stands v (.base b q) x ∧ Fine E v := by
  have st : Stands v (.base b q) x := by rw [hv]; exact .ref _ rfl
  refine ⟨st, ⟨by rw [hv]; exact hself, by rw [hv]; exact hw, fun t y s => ?_, fun b' q' y s => ?_⟩, ⟨_, _, st, sh_base _ _⟩, ?_⟩
  · rw [(s.unique st).2]; exact hx
  · obtain ⟨e, _⟩ := s.unique st; cases e; exact hb
  · rintro ⟨b', hd, hi⟩
    generalize hz : (0 : Nat) = z at hd
    cases hd with
    | object q' _ hb' s => exact hx ((s.unique st).2 ▸ hz.symm)
    | pointer q' q'' y hb' s => obtain ⟨e, _⟩ := s.unique st; cases e

end Rtti.Val
