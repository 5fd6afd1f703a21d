import Verif.Model.FlagNames
import Verif.Model.TypeName
import Verif.Spec.FlagNames
import Verif.Lemmas.CType
/-
C53: printing of type flags. C55: names of types.
-/
set_option autoImplicit false
namespace Rtti.Props
open Spec

/-! ### C53 -/

theorem checkFlag_testBit (v k : Nat) : FlagNames.checkFlag v (1 <<< k) = v.testBit k := by
  rw [FlagNames.checkFlag, Nat.one_shiftLeft]
  rw [Bool.eq_iff_iff, beq_iff_eq]
  constructor
  · intro h
    have := congrArg (fun x => x.testBit k) h
    simpa using this
  · intro h
    apply Nat.eq_of_testBit_eq
    intro i
    by_cases e : k = i
    · subst e; simp [h]
    · simp [e]

theorem pieces_val (v : Nat) (fs : List Nat) (out : List String) :
    (∃ r, FlagNames.pieces v fs out = .val r) ↔ ∀ f ∈ fs, FlagNames.checkFlag v f → f < 24 := by
  induction fs generalizing out with
  | nil => simp [FlagNames.pieces]
  | cons f fs ih =>
    rw [FlagNames.pieces]
    by_cases h : FlagNames.checkFlag v f = true
    · rw [if_pos h]
      by_cases h2 : f < 24
      · have : FlagNames.flagName f = .val (FlagNames.table[f]'h2) := by
          rw [FlagNames.flagName, List.getElem?_eq_getElem h2]
        rw [this, Res.bind, ih]
        constructor
        · intro h3 g hg hg'
          rcases List.mem_cons.1 hg with rfl | hg
          · exact h2
          · exact h3 g hg hg'
        · exact fun h3 g hg hg' => h3 g (List.mem_cons_of_mem _ hg) hg'
      · have : FlagNames.flagName f = .ub := by
          rw [FlagNames.flagName, List.getElem?_eq_none (Nat.le_of_not_lt h2)]
        rw [this, Res.bind]
        constructor
        · rintro ⟨r, hr⟩; cases hr
        · intro h3; exact absurd (h3 f (by simp) h) h2
    · rw [if_neg h, ih]
      constructor
      · intro h3 g hg hg'
        rcases List.mem_cons.1 hg with rfl | hg
        · exact absurd hg' h
        · exact h3 g hg hg'
      · exact fun h3 g hg hg' => h3 g (List.mem_cons_of_mem _ hg) hg'

/-- C53, safety: printing stays inside the table exactly when none of the flags from `Array` upwards (apart from
    `CopyAssignable`, which is never printed) is in the set. -/
theorem C53_defined_iff (v : Nat) :
    (∃ text, FlagNames.print v = .val text) ↔ ∀ p ∈ flagNames, 5 ≤ p.1 → p.1 ≠ 19 → v.testBit p.1 = false := by
  have hp : (∃ text, FlagNames.print v = .val text) ↔ ∃ out, FlagNames.names v = .val out := by
    rw [FlagNames.print]
    cases FlagNames.names v <;> simp [Res.bind]
  rw [hp]
  by_cases h : v = 0
  · subst h
    simp [FlagNames.names, FlagNames.flagName, FlagNames.table, Res.bind]
  · rw [FlagNames.names, if_neg h, pieces_val]
    simp only [FlagNames.order, Flag.LvalueReference, Flag.RvalueReference, Flag.Pointer, Flag.MemberPointer, Flag.Const,
      Flag.Array, Flag.Void, Flag.Integral, Flag.FloatPoint, Flag.Enum, Flag.Function, Flag.Union, Flag.Class,
      Flag.StandardLayout, Flag.Trivial, Flag.Abstract, Flag.Polymorphic, Flag.DefaultConstructible,
      Flag.CopyConstructible, Flag.MoveConstructible, Flag.MoveAssignable, Flag.Destructible, Flag.EQ_Comparable,
      List.forall_mem_cons, checkFlag_testBit, flagNames]
    simp

/-- the text is the names in the order sent, with "|" between them -/
theorem C53_separators (out : List String) : (FlagNames.write ("", true) out).1 = bars out := by
  have go : ∀ (l : List String) (a acc : String), (FlagNames.write (acc ++ a, false) l).1 = acc ++ bars (a :: l) := by
    intro l
    induction l with
    | nil => intro a acc; rfl
    | cons b l ih =>
      intro a acc
      rw [FlagNames.write, if_neg (by simp), ih, show bars (a :: b :: l) = a ++ "|" ++ bars (b :: l) from rfl]
      simp [String.append_assoc]
  cases out with
  | nil => rfl
  | cons a l => rw [FlagNames.write, if_pos rfl, go]; simp

/-- C53, what holds: sets of `Const` and `Pointer` (and the empty set) print right. -/
theorem C53_partial (v : Nat) (h : v < 4) : ∃ text, FlagNames.print v = .val text ∧ PrintsFlags v text := by
  have : v = 0 ∨ v = 1 ∨ v = 2 ∨ v = 3 := by omega
  have fin : ∀ out, FlagNames.names v = .val out → out.Perm ((flagNames.filter fun p => v.testBit p.1).map Prod.snd) → v ≠ 0 →
      ∃ text, FlagNames.print v = .val text ∧ PrintsFlags v text := by
    intro out h1 h2 h3
    refine ⟨bars out, ?_, ?_⟩
    · rw [FlagNames.print, h1, Res.bind, C53_separators]
    · rw [PrintsFlags, if_neg h3]
      exact ⟨out, h2, rfl⟩
  rcases this with rfl | rfl | rfl | rfl
  · exact ⟨"None", rfl, rfl⟩
  · exact fin ["Const"] rfl (by decide) (by decide)
  · exact fin ["Pointer"] rfl (by decide) (by decide)
  · exact fin ["Pointer", "Const"] rfl (by decide) (by decide)

/-- the length of names with bars between them -/
theorem bars_length (l : List String) : (bars l).length = (l.map String.length).sum + (l.length - 1) := by
  induction l with
  | nil => rfl
  | cons a l ih =>
    cases l with
    | nil => simp [bars]
    | cons b l =>
      have : bars (a :: b :: l) = a ++ "|" ++ bars (b :: l) := rfl
      have h1 : "|".length = 1 := rfl
      rw [this, String.length_append, String.length_append, ih, h1]
      simp only [List.map_cons, List.sum_cons, List.length_cons]
      omega

/-- what is sent when the table is not left -/
theorem pieces_eq (v : Nat) (fs : List Nat) (out : List String) (h : ∀ f ∈ fs, FlagNames.checkFlag v f → f < 24) :
    FlagNames.pieces v fs out = .val (out ++ (fs.filter (FlagNames.checkFlag v)).map fun f => FlagNames.table.getD f "") := by
  induction fs generalizing out with
  | nil => simp [FlagNames.pieces]
  | cons f fs ih =>
    have hr := fun g hg => h g (List.mem_cons_of_mem _ hg)
    rw [FlagNames.pieces]
    by_cases e : FlagNames.checkFlag v f = true
    · have h2 : f < FlagNames.table.length := h f (List.mem_cons_self ..) e
      rw [if_pos e, FlagNames.flagName, List.getElem?_eq_getElem h2, List.filter_cons_of_pos e]
      dsimp only [Res.bind]
      rw [ih _ hr, List.map_cons, List.getD_eq_getElem?_getD, List.getElem?_eq_getElem h2]
      simp
    · rw [if_neg e, ih _ hr, List.filter_cons_of_neg e]

/-- C53, exactly when it prints right: when no known flag but `Const` and `Pointer` is in the set. -/
theorem C53_exact (v : Nat) :
    (∃ text, FlagNames.print v = .val text ∧ PrintsFlags v text) ↔ ∀ p ∈ flagNames, 2 ≤ p.1 → v.testBit p.1 = false := by
  by_cases h0 : v = 0
  · subst h0
    exact ⟨fun _ p _ _ => Nat.zero_testBit _, fun _ => C53_partial 0 (by decide)⟩
  by_cases hd : ∃ text, FlagNames.print v = .val text
  · have hn : ∀ f ∈ FlagNames.order, FlagNames.checkFlag v f → f < 24 := by
      rw [← pieces_val v _ []]
      obtain ⟨text, ht⟩ := hd
      rw [FlagNames.print, FlagNames.names, if_neg h0] at ht
      cases e : FlagNames.pieces v FlagNames.order [] <;> rw [e] at ht <;> simp_all [Res.bind]
    have hp : FlagNames.print v = .val (bars ((FlagNames.order.filter (FlagNames.checkFlag v)).map fun f => FlagNames.table.getD f "")) := by
      rw [FlagNames.print, FlagNames.names, if_neg h0, pieces_eq v _ _ hn]
      dsimp only [Res.bind]
      rw [C53_separators]; rfl
    rw [C53_defined_iff] at hd
    simp only [flagNames, List.forall_mem_cons, Nat.reduceLeDiff, true_implies, false_implies, true_and, ne_eq,
      Nat.reduceEqDiff, not_true_eq_false, not_false_eq_true, List.not_mem_nil, implies_true, and_true] at hd
    obtain ⟨h5, h6, h7, h8, h9, h10, h11, h12, h13, h14, h15, h16, h17, h18, h20, h21, h22, h23⟩ := hd
    have hl : FlagNames.order.filter (FlagNames.checkFlag v) = [1 <<< 3, 1 <<< 4, 1 <<< 1, 1 <<< 2, 1 <<< 0].filter (FlagNames.checkFlag v) := by
      have hr : (FlagNames.order.drop 5).filter (FlagNames.checkFlag v) = [] := by
        rw [List.filter_eq_nil_iff]
        simp only [FlagNames.order, List.drop_succ_cons, List.drop_zero, Flag.Array, Flag.Void, Flag.Integral, Flag.FloatPoint, Flag.Enum,
          Flag.Function, Flag.Union, Flag.Class, Flag.StandardLayout, Flag.Trivial, Flag.Abstract, Flag.Polymorphic, Flag.DefaultConstructible,
          Flag.CopyConstructible, Flag.MoveConstructible, Flag.MoveAssignable, Flag.Destructible, Flag.EQ_Comparable,
          List.forall_mem_cons, checkFlag_testBit, h5, h6, h7, h8, h9, h10, h11, h12, h13, h14, h15, h16, h17, h18, h20, h21, h22, h23]
        simp
      have : FlagNames.order = [1 <<< 3, 1 <<< 4, 1 <<< 1, 1 <<< 2, 1 <<< 0] ++ FlagNames.order.drop 5 := rfl
      rw [this, List.filter_append, hr, List.append_nil]
    have hf : flagNames.filter (fun p => v.testBit p.1) =
        ([(0, "Const"), (1, "Pointer"), (2, "MemberPointer"), (3, "LvalueReference"), (4, "RvalueReference"), (19, "CopyAssignable")] :
          List (Nat × String)).filter (fun p => v.testBit p.1) := by
      have h1 : ((flagNames.drop 5).take 14).filter (fun p => v.testBit p.1) = [] := by
        rw [List.filter_eq_nil_iff]
        simp [flagNames, h5, h6, h7, h8, h9, h10, h11, h12, h13, h14, h15, h16, h17, h18]
      have h2 : (flagNames.drop 20).filter (fun p => v.testBit p.1) = [] := by
        rw [List.filter_eq_nil_iff]
        simp [flagNames, h20, h21, h22, h23]
      have h3 : flagNames = flagNames.take 5 ++ ((flagNames.drop 5).take 14 ++ ([(19, "CopyAssignable")] ++ flagNames.drop 20)) := rfl
      rw [h3, List.filter_append, List.filter_append, List.filter_append, h1, h2, List.nil_append, List.append_nil, ← List.filter_append]
      rfl
    have hb : (∀ p ∈ flagNames, 2 ≤ p.1 → v.testBit p.1 = false) ↔
        v.testBit 2 = false ∧ v.testBit 3 = false ∧ v.testBit 4 = false ∧ v.testBit 19 = false := by
      simp [flagNames, h5, h6, h7, h8, h9, h10, h11, h12, h13, h14, h15, h16, h17, h18, h20, h21, h22, h23]
    rw [hp, hl, hb]
    have hs : ∀ text, PrintsFlags v text ↔ ∃ out : List String, out.Perm ((flagNames.filter fun p => v.testBit p.1).map Prod.snd) ∧
        text = bars out := fun text => by rw [PrintsFlags, if_neg h0]
    simp only [hs, hf, List.filter_cons, List.filter_nil, checkFlag_testBit]
    constructor
    · rintro ⟨text, h1, out, h2, rfl⟩
      injection h1 with h1
      have h3 := congrArg String.length h1
      rw [bars_length, bars_length, h2.length_eq, (h2.map String.length).sum_nat] at h3
      revert h3
      clear h1 h2 hs hb hf hl hp hn
      cases v.testBit 0 <;> cases v.testBit 1 <;> cases v.testBit 2 <;> cases v.testBit 3 <;> cases v.testBit 4 <;> cases v.testBit 19 <;> decide
    · rintro ⟨h2, h3, h4, h19⟩
      refine ⟨_, rfl, _, ?_, rfl⟩
      rw [h2, h3, h4, h19]
      cases v.testBit 0 <;> cases v.testBit 1 <;> decide
  · constructor
    · rintro ⟨text, h1, -⟩
      exact absurd ⟨text, h1⟩ hd
    · exact fun h => absurd ((C53_defined_iff v).2 (fun p hp h5 _ => h p hp (by omega))) hd

example : (∀ p ∈ flagNames, 2 ≤ p.1 → (3 + 2 ^ 30).testBit p.1 = false) ∧ ¬ ∀ p ∈ flagNames, 2 ≤ p.1 → (Flag.Const ||| Flag.CopyAssignable).testBit p.1 = false := by
  decide

/-- C53 is false: for most sets printing reads outside the table, and where it does not it may print the wrong
    name or miss one. -/
theorem C53_false : FlagNames.print Flag.Class = .ub ∧
    (∃ text, FlagNames.print Flag.MemberPointer = .val text ∧ ¬ PrintsFlags Flag.MemberPointer text) ∧
    ∃ text, FlagNames.print (Flag.Const ||| Flag.CopyAssignable) = .val text ∧
      ¬ PrintsFlags (Flag.Const ||| Flag.CopyAssignable) text := by
  refine ⟨rfl, ⟨"LvalueReference", by decide, ?_⟩, ⟨"Const", by decide, ?_⟩⟩
  · rintro ⟨out, h1, h2⟩
    have : out = ["MemberPointer"] := List.perm_singleton.1 h1
    rw [this] at h2
    revert h2; decide
  · rintro ⟨out, h1, h2⟩
    have h1 : out.Perm ["Const", "CopyAssignable"] := h1
    have hl := h1.length_eq
    match out, hl with
    | [a, b], _ =>
      have ha := (h1.mem_iff (a := a)).1 (by simp)
      have hb := (h1.mem_iff (a := b)).1 (by simp)
      simp only [List.mem_cons, List.not_mem_nil, or_false] at ha hb
      rcases ha with rfl | rfl <;> rcases hb with rfl | rfl <;> exact absurd h2 (by decide)

private theorem print_cases (v : Nat) : (∃ text, FlagNames.print v = .val text) ∨ FlagNames.print v = .ub := by
  have pc : ∀ fs out, (∃ r, FlagNames.pieces v fs out = .val r) ∨ FlagNames.pieces v fs out = .ub := by
    intro fs
    induction fs with
    | nil => exact fun out => .inl ⟨out, rfl⟩
    | cons f fs ih =>
      intro out
      rw [FlagNames.pieces]
      split
      · unfold FlagNames.flagName
        split
        · exact ih _
        · exact .inr rfl
      · exact ih _
  unfold FlagNames.print FlagNames.names
  split
  · exact .inl ⟨_, rfl⟩
  · rcases pc FlagNames.order [] with ⟨r, e⟩ | e <;> rw [e]
    · exact .inl ⟨_, rfl⟩
    · exact .inr rfl

/-- C53: the flags of a C++ type always contain one whose name is looked for outside the table. -/
theorem C53_types (T : RType) (h : ScalarLayout T) : FlagNames.print (typeFlags T) = .ub := by
  refine (print_cases _).resolve_left fun hv => ?_
  have hv := (C53_defined_iff _).1 hv
  have bit : ∀ k n, (k, n) ∈ flagNames → 5 ≤ k → k ≠ 19 → (typeFlags T).testBit k = false := fun k n hm => hv (k, n) hm
  have b6 := bit 6 "Void" (by decide) (by decide) (by decide)
  have b7 := bit 7 "Integral" (by decide) (by decide) (by decide)
  have b8 := bit 8 "FloatPoint" (by decide) (by decide) (by decide)
  have b9 := bit 9 "Enum" (by decide) (by decide) (by decide)
  have b10 := bit 10 "Function" (by decide) (by decide) (by decide)
  have b11 := bit 11 "Union" (by decide) (by decide) (by decide)
  have b12 := bit 12 "Class" (by decide) (by decide) (by decide)
  have b13 := bit 13 "StandardLayout" (by decide) (by decide) (by decide)
  rw [testBit_typeFlags] at b6 b7 b8 b9 b10 b11 b12 b13
  simp at b6 b7 b8 b9 b10 b11 b12 b13
  unfold ScalarLayout at h
  cases hk : T.t.baseType.kind <;> simp_all

example : ScalarLayout ⟨.lref, .ptr ⟨true, false⟩ (.base ⟨1, .memberPtr, 16, ⟨true, true, false, false, true, true, true, true, true, true, true⟩⟩ ⟨false, false⟩)⟩ :=
  fun _ => rfl

/-- the types `metaTypeId` is asked for, one after the other -/
def registered (nm : RType → Str) : Reg → List RType → Reg
  | r, [] => r
  | r, T :: Ts => registered nm (r.metaTypeId nm T).1 Ts

private def Described (Ts : List RType) (r : Reg) : Prop :=
  ∀ h i, r.info h = some i → ∃ T, (T ∈ Ts ∨ ∃ S ∈ Ts, T = ⟨.none, S.t.fullDecay⟩) ∧ i.desc = describe T

private theorem described_holder {Ts : List RType} {nm : RType → Str} {r : Reg} {T : RType} {c : TypeId} (d : Described Ts r)
    (hT : T ∈ Ts ∨ ∃ S ∈ Ts, T = ⟨.none, S.t.fullDecay⟩) : Described Ts (r.initHolder nm T c).1 := by
  have key : ∀ r : Reg, Described Ts r → Described Ts (r.addTypeInfo (nm T) (describe T) c).1 := by
    intro r d
    unfold Reg.addTypeInfo
    split
    · exact d
    · split
      · exact d
      · intro h i e
        dsimp only [upd] at e
        split at e
        · cases e; exact ⟨T, hT, rfl⟩
        · exact d h i e
  unfold Reg.initHolder Reg.registerMetaType Reg.customTypes
  cases r.types
  · exact key _ d
  · exact key _ d
  · exact d

private theorem described {Ts : List RType} (nm : RType → Str) {r : Reg} {T : RType} (d : Described Ts r) (hT : T ∈ Ts) :
    Described Ts (r.metaTypeId nm T).1 := by
  unfold Reg.metaTypeId
  split
  · exact d
  · split
    · exact d
    · dsimp only
      split
      · exact described_holder d (.inl hT)
      · refine described_holder ?_ (.inl hT)
        unfold Reg.metaTypeIdDecayed
        split
        · exact d
        · split
          · exact d
          · exact described_holder d (.inr ⟨T, hT, rfl⟩)

private theorem decay_base (t : CType) : t.fullDecay.baseType = t.baseType := by
  have hr : ∀ t : CType, t.removeAllCv.baseType = t.baseType := by
    intro t
    induction t with
    | base => rfl
    | ptr _ _ ih => exact ih
    | arr _ _ ih => exact ih
  rw [CType.fullDecay, hr]
  cases t with
  | base b q => simp only [CType.decay]; split <;> rfl
  | ptr => rfl
  | arr => rfl

/-- C53: so streaming a `MetaType` is undefined, whatever types were registered and whichever of them it is, and also for the
    invalid `MetaType`. -/
theorem C53_metatype_false (nm : RType → Str) (Ts : List RType) (hT : ∀ T ∈ Ts, ScalarLayout T) (h : Nat)
    (hh : h = 0 ∨ ∃ i, (registered nm Reg.init Ts).info h = some i) :
    (FlagNames.printType (registered nm Reg.init Ts) h).2 = .ub := by
  have all : ∀ l : List RType, (∀ T ∈ l, T ∈ Ts) → ∀ r, Described Ts r → Described Ts (registered nm r l) := by
    intro l
    induction l with
    | nil => exact fun _ _ d => d
    | cons T l ih => exact fun hl r d => ih (fun T hT => hl T (.tail _ hT)) _ (described nm d (hl T (.head _)))
  have d := all Ts (fun _ h => h) Reg.init (fun h i e => by simp [Reg.init] at e)
  generalize registered nm Reg.init Ts = r at *
  have hi : ∀ h, (r.typeId h).1.info = r.info := by
    intro h
    unfold Reg.typeId Reg.customTypes
    cases r.types <;> rfl
  unfold FlagNames.printType
  dsimp only
  by_cases h0 : h = 0
  · subst h0; rfl
  · obtain ⟨i, e⟩ := hh.resolve_left h0
    obtain ⟨T, hm, hd⟩ := d h i e
    have hs : ScalarLayout T := by
      rcases hm with hm | ⟨S, hS, rfl⟩
      · exact hT T hm
      · have := hT S hS
        unfold ScalarLayout at *
        rw [decay_base]
        exact this
    have hp : FlagNames.print i.desc.flags = .ub := by rw [hd]; exact C53_types T hs
    simp only [Reg.observe, if_neg h0, Reg.deref, hi, e, Res.bind, hp]

/-- two types registered (and the decayed type of the second): three records and the invalid type, all undefined to print -/
example : let int : Base := ⟨1, .integral, 4, ⟨true, true, false, false, true, true, true, true, true, true, true⟩⟩
    let Ts : List RType := [⟨.none, .base int ⟨false, false⟩⟩, ⟨.lref, .ptr ⟨true, false⟩ (.base int ⟨true, false⟩)⟩]
    let nm : RType → Str := fun T => if T.ref = .lref then ['r'] else if T.t.isPointer then ['p'] else ['i']
    (∀ T ∈ Ts, ScalarLayout T) ∧ ∀ h, h ∈ [1, 2, 3] → ((registered nm Reg.init Ts).info h).isSome := by
  refine ⟨by simp [ScalarLayout, CType.baseType], by decide⟩

/-- C53, what is written where the flags can be printed: the id (that of the registration), the name and the flags of the type. Missing:
    types whose flags cannot be printed; those of C++ types never can (`C53_types`). -/
theorem C53_metatype_partial (r : Reg) (h : Nat) (i : Info) (f : String) (ht : r.types ≠ .destroyed) (h0 : h ≠ 0)
    (hi : r.info h = some i) (hf : FlagNames.print i.desc.flags = .val f) :
    (FlagNames.printType r h).2 =
      .val ("ID: [" ++ toString h ++ "], Name: [" ++ String.ofList i.name ++ "], Flags: [" ++ f ++ "]") := by
  unfold FlagNames.printType Reg.typeId Reg.customTypes
  cases e : r.types with
  | destroyed => exact absurd e ht
  | alive => simp [Reg.observe, h0, Reg.deref, hi, Res.bind, hf]
  | notYet => simp [Reg.observe, h0, Reg.deref, hi, Res.bind, hf]

-- two types registered by name; the second one without flags
example : (Reg.init.registerMetaType ['a'] ⟨4, 0, 0, Flag.Class⟩ 0).1.registerMetaType ['b'] ⟨1, 0, 0, 0⟩ 0 |>.1 |>
    fun r => ((FlagNames.printType r 2).2, (FlagNames.printType r 1).2) =
      (.val "ID: [2], Name: [b], Flags: [None]", .ub) := by decide +kernel

/-! ### C55 -/


theorem strrchr_end (c : Char) (s : Str) : TypeName.strrchr c (s ++ [c]) = some s.length := by
  induction s with
  | nil => simp [TypeName.strrchr]
  | cons a s ih => simp [TypeName.strrchr, ih]

/-- C55 for GCC: every spelling comes back exactly. -/
theorem C55_gcc (s : Str) : TypeName.signature (TypeName.gcc s) = .val s := by
  have : TypeName.strstr TypeName.pat (TypeName.gcc s) = some (['T', ' ', '=', ' '] ++ (s ++ [']'])) := rfl
  rw [TypeName.signature, this]
  simp [strrchr_end]

example : TypeName.signature (TypeName.gcc "A<int[3]>::f(T) [with T = B]::C".toList) = .val "A<int[3]>::f(T) [with T = B]::C".toList :=
  C55_gcc _

/-- C55 for Clang, whose text mentions the type twice: exact for every spelling that does not contain `T =`. -/
theorem C55_clang_partial (s : Str) (h : ∀ a b, s ≠ a ++ ['T', ' ', '='] ++ b) :
    TypeName.signature (TypeName.clang s) = .val s := by
  have skip : ∀ (s r : Str), (∀ a b, s ≠ a ++ ['T', ' ', '='] ++ b) →
      TypeName.strstr TypeName.pat (s ++ '>' :: r) = TypeName.strstr TypeName.pat ('>' :: r) := by
    intro s r
    induction s with
    | nil => intro _; rfl
    | cons a s ih =>
      intro h
      rw [List.cons_append, TypeName.strstr, if_neg, ih]
      · intro a' b e
        exact h (a :: a') b (by simp [e])
      · intro hp
        match s, h, hp with
        | [], _, hp => simp [TypeName.pat, List.isPrefixOf] at hp
        | [x], _, hp => simp [TypeName.pat, List.isPrefixOf] at hp
        | x :: y :: s, h, hp =>
          simp only [TypeName.pat, List.cons_append, List.isPrefixOf, Bool.and_true, Bool.and_eq_true, beq_iff_eq] at hp
          obtain ⟨rfl, rfl, rfl⟩ := hp
          exact h [] s rfl
  have : TypeName.strstr TypeName.pat (TypeName.clang s) = some (['T', ' ', '=', ' '] ++ (s ++ [']'])) := by
    have e : TypeName.strstr TypeName.pat (TypeName.clang s) =
        TypeName.strstr TypeName.pat (s ++ '>' :: ("::TypeName() [T = ".toList ++ s ++ [']'])) := rfl
    rw [e, skip s _ h]
    rfl
  rw [TypeName.signature, this]
  simp [strrchr_end]

example : TypeName.signature (TypeName.clang "A<int[3]>".toList) = .val "A<int[3]>".toList :=
  C55_clang_partial _ (by
    intro a b e
    have := congrArg (fun l : List Char => decide ('T' ∈ l)) e
    simp at this)

/-- C55 is false for Clang when the spelling contains `T =` (as the file name in the spelling of a lambda's type
    may). -/
theorem C55_clang_false : ∃ s : Str, TypeName.signature (TypeName.clang s) ≠ .val s :=
  ⟨"(lambda at T = x.cpp:1:2)".toList, by decide⟩

/-- `T =` occurs in `s` -/
def Mentions (s : Str) : Prop := ∃ a b, s = a ++ ['T', ' ', '='] ++ b

theorem strstr_none {s : Str} (h : ¬ Mentions s) : TypeName.strstr TypeName.pat s = none := by
  induction s with
  | nil => rfl
  | cons c s ih =>
    rw [TypeName.strstr, if_neg, ih fun ⟨a, b, e⟩ => h ⟨c :: a, b, by simp [e]⟩]
    intro hp
    obtain ⟨t, ht⟩ := List.isPrefixOf_iff_prefix.1 hp
    exact h ⟨[], t, by simpa [TypeName.pat] using ht.symm⟩

theorem strstr_first {a rest : Str} (h : ¬ Mentions (a ++ ['T', ' '])) :
    TypeName.strstr TypeName.pat (a ++ 'T' :: ' ' :: '=' :: rest) = some ('T' :: ' ' :: '=' :: rest) := by
  induction a with
  | nil => simp [TypeName.strstr, TypeName.pat, List.isPrefixOf]
  | cons c a ih =>
    rw [List.cons_append, TypeName.strstr, if_neg, ih fun ⟨x, y, e⟩ => h ⟨c :: x, y, by simp [e]⟩]
    intro hp
    match a, h, hp with
    | [], h, hp => simp [TypeName.pat, List.isPrefixOf] at hp
    | [x], h, hp =>
      simp only [TypeName.pat, List.cons_append, List.nil_append, List.isPrefixOf, Bool.and_eq_true, beq_iff_eq] at hp
      exact absurd hp.2.2.1 (by decide)
    | x :: y :: s, h, hp =>
      simp only [TypeName.pat, List.cons_append, List.isPrefixOf, Bool.and_true, Bool.and_eq_true, beq_iff_eq] at hp
      obtain ⟨rfl, rfl, rfl⟩ := hp
      exact h ⟨[], s ++ ['T', ' '], by simp⟩

theorem strrchr_none {c : Char} {s : Str} (h : c ∉ s) : TypeName.strrchr c s = none := by
  induction s with
  | nil => rfl
  | cons a s ih =>
    simp only [List.mem_cons, not_or] at h
    simp [TypeName.strrchr, ih h.2, Ne.symm h.1]

theorem strrchr_last {c : Char} {s post : Str} (h : c ∉ post) : TypeName.strrchr c (s ++ c :: post) = some s.length := by
  induction s with
  | nil => simp [TypeName.strrchr, strrchr_none h]
  | cons a s ih => simp [TypeName.strrchr, ih]

/-- C55, what is cut out of any text at all: nothing if it does not contain `T =`; else, from the first one on, what is after the
    character that follows up to the last `]`, and nothing if there is none; if the text ends there, memory outside of it is read. -/
theorem C55_exact (s : Str) :
    (¬ Mentions s → TypeName.signature s = .val []) ∧
    (∀ a, ¬ Mentions (a ++ ['T', ' ']) →
      (s = a ++ ['T', ' ', '='] → TypeName.signature s = .ub) ∧
      (∀ x t, s = a ++ ['T', ' ', '=', x] ++ t → ']' ∉ t → TypeName.signature s = .val []) ∧
      (∀ x n t, s = a ++ ['T', ' ', '=', x] ++ n ++ ']' :: t → ']' ∉ t → TypeName.signature s = .val n)) := by
  refine ⟨fun h => by rw [TypeName.signature, strstr_none h], fun a ha => ⟨?_, ?_, ?_⟩⟩
  · rintro rfl
    rw [TypeName.signature, strstr_first ha]
    rfl
  · rintro x t rfl ht
    have := strstr_first (rest := x :: t) ha
    rw [TypeName.signature, show a ++ ['T', ' ', '=', x] ++ t = a ++ 'T' :: ' ' :: '=' :: x :: t by simp, this]
    simp [strrchr_none ht]
  · rintro x n t rfl ht
    have := strstr_first (rest := x :: (n ++ ']' :: t)) ha
    rw [TypeName.signature, show a ++ ['T', ' ', '=', x] ++ n ++ ']' :: t = a ++ 'T' :: ' ' :: '=' :: x :: (n ++ ']' :: t) by simp, this]
    simp [strrchr_last ht]

example : TypeName.signature "f() [T =".toList = .ub ∧ TypeName.signature "f(T)".toList = .val [] ∧
    TypeName.signature "f() [T = A[3]; U = B]".toList = .val "A[3]; U = B".toList := by decide
example : ¬ Mentions ("f() [".toList ++ ['T', ' ']) := by
  rintro ⟨a, b, e⟩
  have := congrArg (fun l : List Char => decide ('=' ∈ l)) e
  simp at this

/-- C55 for Clang, when the spelling contains `T =`: the first one counts, and the name is the rest of the spelling after the character that follows, then
    the rest of the text and the whole spelling again. -/
theorem C55_clang_exact (a : Str) (x : Char) (b : Str) (h : ¬ Mentions (a ++ ['T', ' '])) :
    TypeName.signature (TypeName.clang (a ++ ['T', ' ', '=', x] ++ b)) =
      .val (b ++ ">::TypeName() [T = ".toList ++ (a ++ ['T', ' ', '=', x] ++ b)) := by
  have key := ((C55_exact (a ++ ['T', ' ', '=', x] ++ (b ++ ">::TypeName() [T = ".toList ++ (a ++ ['T', ' ', '=', x] ++ b)) ++ [']'])).2 a h).2.2
    x _ [] rfl (by simp)
  have skip : ∀ r : Str, TypeName.strstr TypeName.pat ("rtti::internal::TypeName<".toList ++ r) = TypeName.strstr TypeName.pat r := fun _ => rfl
  rw [← key]
  unfold TypeName.signature TypeName.clang
  rw [List.append_assoc, skip]
  congr 2
  simp

example : TypeName.signature (TypeName.clang "(lambda at T = x.cpp:1:2)".toList) =
    .val "x.cpp:1:2)>::TypeName() [T = (lambda at T = x.cpp:1:2)".toList := by decide

end Rtti.Props
