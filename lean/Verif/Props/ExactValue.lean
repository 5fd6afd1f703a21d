import Verif.Props.Equal
import Verif.Props.Invoke
import Verif.Props.Exact
/-
C30, C41, C50: exactly when each of them holds.
-/
set_option autoImplicit false
namespace Rtti.Props
open Spec World

/-! ### C30 -/

/-- C30, exactly: after defining a method in a class, look-up there finds what the call returned; that is the class's own if and only if
    it had one of that signature already or no class it is derived from has one. -/
theorem C30_exact {rank} {w : World} (h : Reachable rank w) {d : Ptr} {sig : Str} (hd : w.kind d = some .cls) (hn : sig ≠ []) :
    ∃ m, (w.createMethod d sig true).2 = .val (some m) ∧ (w.createMethod d sig true).1.getMethod d sig = .val (some m) ∧
      ((w.createMethod d sig true).1.owner m = some d ↔
        (∃ m', OwnMethod w sig d m') ∨ ∀ a m', Reaches w d a → ¬ OwnMethod w sig a m') := by
  have i := Inv.reachable h
  have ho : w.isContainer d = true := by simp [isContainer, hd]
  obtain ⟨r, e, hs, hno⟩ := i.classMethodF_spec sig hn w.depth d hd (below_lt_depth _ _ _)
  have hlook : w.getMethod d sig = .val r := by simp only [getMethod, if_neg hn, hd, e]
  have hown : ∀ {a m'}, OwnMethod w sig a m' → w.owner m' = some a := by
    rintro a m' ⟨it, rfl, pre, post, hi, _⟩
    exact (i.items a .method it (by rw [hi]; simp)).2.2.2
  rcases C17_method h ho hn with ⟨p, h1, h2, h3⟩ | ⟨h0, p, h1, h2, h3⟩
  · refine ⟨p, h2, by rw [h3]; exact h1, ?_⟩
    rw [h3]
    have hr : r = some p := by
      have := hlook.symm.trans h1
      simpa using this
    obtain ⟨a, ha, hb⟩ := Finds.exists_own i (hs p hr)
    constructor
    · intro hp
      have : a = d := by
        have := (hown hb).symm.trans hp
        simpa using this
      exact .inl ⟨p, this ▸ hb⟩
    · rintro (⟨m', hm⟩ | hm)
      · obtain ⟨r', e', h4⟩ := ownMethod_spec w d sig
        rw [(h4 m').2 hm] at e'
        have := (getMethod_of_own ho hn e').symm.trans h1
        have : m' = p := by simpa using this
        exact this ▸ hown hm
      · exact absurd hb (hm a p ha)
  · refine ⟨p, h1, h3, ?_⟩
    have hr : r = none := by
      have := hlook.symm.trans h0
      simpa using this
    exact ⟨fun _ => .inr (hno hr), fun _ => h2.owner⟩

/-- C30 for properties, exactly. -/
theorem C30_exact_property {rank} {w : World} (h : Reachable rank w) {d : Ptr} {n : Str} (hd : w.kind d = some .cls) (hn : n ≠ []) :
    ∃ m, (w.createProperty d n true).2 = .val (some m) ∧ (w.createProperty d n true).1.getProperty d n = .val (some m) ∧
      ((w.createProperty d n true).1.owner m = some d ↔
        (∃ m', OwnProperty w n d m') ∨ ∀ a m', Reaches w d a → ¬ OwnProperty w n a m') := by
  have i := Inv.reachable h
  have ho : w.isContainer d = true := by simp [isContainer, hd]
  obtain ⟨r, e, hs, hno⟩ := i.classPropertyF_spec n hn w.depth d hd (below_lt_depth _ _ _)
  have hlook : w.getProperty d n = .val r := by simp only [getProperty, hd, e]
  have hown : ∀ {a m'}, OwnProperty w n a m' → w.owner m' = some a := by
    rintro a m' ⟨it, hi, _, rfl⟩
    exact (i.items a .property it hi).2.2.2
  rcases C17_property h ho hn with ⟨p, h1, h2, h3⟩ | ⟨h0, p, h1, h2, h3⟩
  · refine ⟨p, h2, by rw [h3]; exact h1, ?_⟩
    rw [h3]
    have hr : r = some p := by
      have := hlook.symm.trans h1
      simpa using this
    obtain ⟨a, ha, hb⟩ := Finds.exists_own i (hs p hr)
    constructor
    · intro hp
      have : a = d := by
        have := (hown hb).symm.trans hp
        simpa using this
      exact .inl ⟨p, this ▸ hb⟩
    · rintro (⟨m', it, hi, e1, rfl⟩ | hm)
      · have hg := ((i.wf d .property).get_iff n it).2 ⟨hn, hi, e1⟩
        have := (getProperty_of_own (p := it.ptr) ho hn (by simp [ownProperty, hg])).symm.trans h1
        have : it.ptr = p := by simpa using this
        rw [← this]
        exact (i.items d .property it hi).2.2.2
      · exact absurd hb (hm a p ha)
  · refine ⟨p, h1, h3, ?_⟩
    have hr : r = none := by
      have := hlook.symm.trans h0
      simpa using this
    exact ⟨fun _ => .inr (hno hr), fun _ => h2.owner⟩

/-- class 5 gets the method of a base class, and its own property of a new name -/
example : (Ex.diamond.createMethod 5 ['f', '(', ')'] true).1.owner 6 ≠ some 5 ∧
    (Ex.diamond.createMethod 5 ['f', '(', ')'] true).2 = .val (some 6) ∧
    (Ex.diamond.createProperty 5 ['z'] true).2 = .val (some 10) ∧ (Ex.diamond.createProperty 5 ['z'] true).1.owner 10 = some 5 := by decide

end Rtti.Props

namespace Rtti.Props
open Spec Val

/-! ### C41 -/

/-- C41, exactly: with a hash function without collisions, the hashes of two variants are equal if and only if they show the same
    number of bytes, and the same bytes. (Whether they compare equal, and of what types they are, does not matter.) -/
theorem C41_exact (C : Cmp) (H : List Nat → Nat) (inj : ∀ l l', H l = H l' → l = l') {v w : Vnt} {u u' : CType} {a a' : Addr}
    (st : Stands v u a) (st' : Stands w u' a') :
    hash C H v = hash C H w ↔ u.sizeOf = u'.sizeOf ∧ ∀ i, i < u.sizeOf → C.byte (a + i) = C.byte (a' + i) := by
  have len : ∀ n x, (bytes C x n).length = n := by
    intro n; induction n with
    | zero => intro x; rfl
    | succ n ih => intro x; simp [bytes, ih]
  have get : ∀ n x i, i < n → (bytes C x n)[i]? = some (C.byte (x + i)) := by
    intro n; induction n with
    | zero => intro x i h; omega
    | succ n ih =>
      intro x i h
      cases i with
      | zero => simp [bytes]
      | succ i => simp [bytes, ih (x + 1) i (by omega), show x + 1 + i = x + (i + 1) by omega]
  obtain ⟨g, eg, hg⟩ := st.held
  obtain ⟨g', eg', hg'⟩ := st'.held
  unfold Val.hash
  rw [eg, eg']
  simp only
  rw [object_right eg st, object_right eg' st', ← hg, ← hg']
  constructor
  · intro h
    have h := inj _ _ h
    have hl : u.sizeOf = u'.sizeOf := by
      have := congrArg List.length h
      simpa [len] using this
    refine ⟨hl, fun i hi => ?_⟩
    have := congrArg (·[i]?) h
    simp only [get _ _ i hi, get _ _ i (hl ▸ hi)] at this
    simpa using this
  · rintro ⟨hl, hb⟩
    congr 1
    apply List.ext_getElem?
    intro i
    by_cases hi : i < u.sizeOf
    · rw [get _ _ i hi, get _ _ i (hl ▸ hi), hb i hi]
    · rw [List.getElem?_eq_none (by rw [len]; omega), List.getElem?_eq_none (by rw [len]; omega)]

/-- two variants showing different objects; if all bytes are the same, so are the hashes -/
example : Stands ExQ.r1 (ExV.cls ExV.B) 5000 ∧ Stands ExQ.r2 (ExV.cls ExV.B) 6000 ∧ 0 < (ExV.cls ExV.B).sizeOf :=
  ⟨.ref _ rfl, .ref _ rfl, by decide⟩

/-! ### C50 -/

private theorem over_base : ∀ t : CType, Over t t.baseType
  | .base b q => .base b q
  | .ptr q t => .ptr q (over_base t)
  | .arr n t => .arr n (over_base t)

private theorem depth_arity : ∀ t : CType, Depth t t.pointerArity
  | .base b q => .base b q
  | .ptr q t => .ptr q (depth_arity t)
  | .arr n t => .arr n t

/-- nothing to run on: exactly for what is neither an object nor a pointer to one -/
theorem object_none_iff {E : Env} {v : Vnt} (hv : v.held = none ∨ ∃ u x, Stands v u x ∧ Shallow u) (b : Base) (method isConst : Bool) :
    object E b method isConst v = .ok none ↔ v.held = none ∨ NoObject v := by
  rcases hv with hv | ⟨u, x, st, hu⟩
  · simp [object, hv]
  · constructor
    · intro h
      refine .inr fun u' x' st' => ?_
      obtain ⟨rfl, rfl⟩ := st'.unique st
      unfold object at h
      rw [if_neg (held_of st), isClass_of st, isClassPtr_of st] at h
      by_cases hk : u'.baseType.kind = .cls
      · right
        simp only [hk, decide_true, Bool.true_and, Bool.and_true] at h
        cases hp : u'.isPointer with
        | false =>
          exfalso
          simp only [hp, Bool.not_false, if_true] at h
          split at h
          · cases h
          · cases hr : reference E v (if isConst then .refConst else .ref) (.base b ⟨method, false⟩) <;> rw [hr] at h <;> cases h
        | true =>
          have hd := depth_arity u'
          cases u' with
          | base => cases hp
          | arr => cases hp
          | ptr q t =>
            simp only [CType.pointerArity] at hd
            cases hz : t.pointerArity with
            | zero =>
              exfalso
              simp only [CType.pointerArity, hz, hp, Bool.not_true, Bool.false_eq_true, if_false, Bool.and_true] at h
              rw [if_pos (by decide)] at h
              cases hr : to E v isConst (.ptr ⟨false, false⟩ (.base b ⟨method, false⟩)) with
              | ok m =>
                rw [hr] at h
                simp only [Ret.bind] at h
                split at h <;> cases h
              | throw => rw [hr] at h; cases h
              | terminate => rw [hr] at h; cases h
              | ub => rw [hr] at h; cases h
              | diverge => rw [hr] at h; cases h
            | succ d =>
              rw [hz] at hd
              exact ⟨d, hd⟩
      · exact .inl ⟨_, over_base _, hk⟩
    · rintro (h | h)
      · exact absurd h (held_of st)
      · exact object_none st hu h b method isConst

/-- C50, exactly: a call of a member function does nothing, without any error, if and only if the number of arguments is right and the
    instance is neither an object nor a pointer to one. -/
theorem C50_exact {E : Env} (N : Nest) {v : Vnt} (hv : v.held = none ∨ ∃ u x, Stands v u x ∧ Shallow u) (f : Fn) (b : Base) (ic : Bool) (args : List Arg) :
    memberInvoke E N f b ic v args = .ok .nothing ↔ (∃ as, pack f.params.length args = .ok as) ∧ (v.held = none ∨ NoObject v) := by
  unfold memberInvoke
  cases hp : pack f.params.length args with
  | ok as =>
    simp only [Ret.bind, Ret.ok.injEq, exists_eq', true_and]
    rw [← object_none_iff (E := E) hv b f.const ic]
    cases ho : object E b f.const ic v with
    | ok o =>
      cases o with
      | none => simp
      | some o =>
        simp only [Ret.ok.injEq, reduceCtorEq, iff_false]
        cases getAll E N f.params as <;> simp
    | _ => simp
  | _ => simp [Ret.bind]

/-- C50 for reading a member, exactly: nothing is read, without any error. -/
theorem C50_exact_get {E : Env} (N : Nest) {v : Vnt} (hv : v.held = none ∨ ∃ u x, Stands v u x ∧ Shallow u) (b : Base) (t : CType) (off : Nat) :
    (Property.field b t off).get E N (some v) = .ok .empty ↔ v.held = none ∨ NoObject v := by
  simp only [Property.get]
  rw [← object_none_iff (E := E) hv b true true]
  cases ho : object E b true true v with
  | ok o => cases o <;> simp [Ret.bind]
  | _ => simp [Ret.bind]

/-- C50 for writing a member, exactly: nothing is written, without any error, although the member is not const. -/
theorem C50_exact_set {E : Env} (N : Nest) {v : Vnt} (hv : v.held = none ∨ ∃ u x, Stands v u x ∧ Shallow u) (b : Base) (t : CType) (off : Nat)
    (ic : Bool) (a : Arg) :
    (Property.field b t off).set E N (some (ic, v)) a = .ok .nothing ↔ ¬IsConst t ∧ (v.held = none ∨ NoObject v) := by
  rw [← isConst_iff]
  have key := object_none_iff (E := E) hv b false ic
  rw [← key]
  simp only [Property.set]
  by_cases ht : t.isConst = true
  · simp [ht]
  simp only [ht, Bool.false_eq_true, if_false, not_false_eq_true, true_and]
  by_cases hh : v.held = none
  · simp [hh, object]
  have hb : ∀ (x : Ret Made), (x.bind fun m => (object E b false ic v).bind fun o =>
      match o with
      | none => Ret.ok Wrote.nothing
      | some o => .ok (.assigned ⟨o, off⟩ m)) = .ok .nothing → object E b false ic v = .ok none := by
    intro x h
    cases x with
    | ok m =>
      cases ho : object E b false ic v with
      | ok o => cases o <;> simp [Ret.bind, ho] at h ⊢
      | _ => simp [Ret.bind, ho] at h
    | _ => simp [Ret.bind] at h
  rw [if_neg hh]
  split
  · rename_i hc
    have hne : object E b false ic v ≠ .ok none := by
      unfold object
      rw [if_neg hh, if_pos hc]
      split
      · simp
      · cases reference E v (if ic then .refConst else .ref) (.base b ⟨false, false⟩) <;> simp [Ret.bind]
    split
    · simp [hne]
    · exact ⟨fun h => hb _ h, fun h => absurd h hne⟩
  · rename_i hc
    split
    · rename_i hcp
      have hne : object E b false ic v ≠ .ok none := by
        unfold object
        rw [if_neg hh, if_neg hc, if_pos hcp]
        cases to E v ic (.ptr ⟨false, false⟩ (.base b ⟨false, false⟩)) with
        | ok m => simp only [Ret.bind]; split <;> simp
        | _ => simp [Ret.bind]
      exact ⟨fun h => hb _ h, fun h => absurd h hne⟩
    · rename_i hcp
      simp [object, hh, hc, hcp]

/-- an `int` as instance: nothing happens; an object: the call is made -/
example : (∃ u x, Stands ExV.vI u x ∧ Shallow u) ∧ memberInvoke ExV.env ExI.nest ExI.f6 ExV.B false ExV.vI [] = .ok .nothing := by
  refine ⟨?_, by decide +kernel⟩
  exact ⟨_, _, .inPlace Ex.int rfl (fun _ _ h => nomatch h) (by decide), sh_base _ _⟩

end Rtti.Props
