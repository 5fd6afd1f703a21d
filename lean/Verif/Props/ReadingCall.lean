import Verif.Props.Reading
import Verif.Props.Linked
/-
C78: from the call that stored an object, over the definition that registered a function, to the function that runs on it.
-/
set_option autoImplicit false
namespace Rtti.Props
open Rtti Spec World Rtti.Val Reading

variable {rank : TypeId → Nat} {S : RType → Str}

/-- C78: a program stores an object of a class in a variant, does with its variants whatever it likes, and the variant still
    contains the value; the function registered for the class under the signature runs, on an object of the variant's own
    with this value, with the arguments it is given. (`classInfo()`, if the class has one, speaks the truth about complete
    objects.) -/
theorem C78_call {P : VMem.Prog} {L : Layout} (hL : L.Of P) {s : VMem.State} (r : Reach P L s) {E : Env} (sh : Shows P L s E)
    {h : List Def} {l : Linked} (ap : Program rank S h l) (hw : E.w = l.w) (N : Nest) (junk : Fn) (arg : Arg) (args : List Arg)
    {x t v : Nat} {u : VMem.Var} (e : s.env (some x) = some u) (hx : VMem.view s x = some (.val t v))
    {b : Base} {q : CV} (ht : L.ty t = .base b q) (hb : b.kind = .cls) (hi : E.info b = true → ∀ a, E.dyn b a = (E.tid b, a))
    {o : Ptr} (ho : l.w.find (E.tid b) = some o) {n : Str} {f : Fn} (hd : DefinedMethod rank S h o n f) (hf : f.cls = some b) :
    ∃ a id, Owns L s x a id ∧ s.mem.objs id = some ⟨t, v⟩ ∧
      invokeNamed E N (l.fnOf junk) ⟨false, Reading.seen L s.mem x u, arg⟩ (f.signature S n) args =
        (pack f.params.length args).bind fun as => (getAll E N f.params as).bind fun bs => .ok (.called (some (.at a)) bs) := by
  have hr : Reachable rank E.w := hw ▸ ap.reachable
  obtain ⟨sd, a, id, h1, h2, st⟩ := (C78_stands hL r sh e).2.1 t v hx
  rw [ht] at st
  have st : Stands (Reading.seen L s.mem x u) (.base b ⟨false, false⟩) a := st
  have hn : ¬NullObject E (Reading.seen L s.mem x u) := by
    rintro ⟨c, hc, _⟩
    generalize hz : (0 : Addr) = z at hc
    cases hc with
    | object _ q' _ st' => exact sd.object _ _ st' hz.symm
    | pointer _ q' q'' _ st' => cases (st.unique st').1
  have hc : ClassOf E (Reading.seen L s.mem x u) o := by
    refine ⟨b, a, E.tid b, a, .object b _ a hb st, ?_, by rw [hw]; exact ho⟩
    unfold Complete
    split
    · rename_i hh; exact (hi hh a).symm
    · rfl
  refine ⟨a, id, h1, h2, ?_⟩
  rw [C74_by_signature_partial ap hw N junk ⟨false, Reading.seen L s.mem x u, arg⟩ args hn hc hd]
  have shl : ∀ (b : Base) (q : CV), Shallow (.base b q) := fun _ _ => by simp [Shallow, CType.pointerArity]
  obtain ⟨hh, eh, hu⟩ := st.held
  have ref : reference E (Reading.seen L s.mem x u) .ref (.base b ⟨f.const, false⟩) = .ok a := by
    cases hcst : f.const with
    | false => exact (ownType sd st).1
    | true =>
      refine ((C42_reference_partial hr sd st hn .ref _ (shl _ _) (shl _ _)).1 a).2 ⟨?_, .same _ a st ?_ (.inl nofun)⟩
      · refine (C42_fits_without_arrays st .ref _ (shl _ _) (shl _ _) (.base _ _) (.base _ _)).2 ?_
        rw [vtype eh]
        simp only [Access.attr, Held.type, ← hu, Access.target]
        refine ⟨⟨0, .base _ _, .base _ _⟩, fun _ => .inl rfl, nofun, ?_, ?_⟩
        · intro k s t hs ht _ hc
          cases hs; cases ht; cases hc
        · intro k s t hs ht _ _ _ j t' hj
          cases hs
          omega
      · exact .inr ⟨b, _, _, by simp [hb], rfl, rfl⟩
  have hcls : (describe ((Reading.seen L s.mem x u).type .none)).isClass = true := by
    rw [vtype eh]
    simp only [Held.type, ← hu]
    rw [describe_isClass]
    simp [CType.baseType, CType.isPointer, hb]
  simp only [methodInvoke, hf, memberInvoke, object, eh, hcls, ref, if_true, Bool.false_and, Bool.false_eq_true, if_false, Ret.bind]
  cases hp : pack f.params.length args <;> simp [Ret.bind]

/-- C78: the same for a variant that contains a pointer to an object of the class: the function runs on the object that the
    stored pointer points to. (Copying a pointer does not throw; the function is const if the object is.) -/
theorem C78_call_pointer {P : VMem.Prog} {L : Layout} (hL : L.Of P) {s : VMem.State} (r : Reach P L s) {E : Env} (sh : Shows P L s E)
    {h : List Def} {l : Linked} (ap : Program rank S h l) (hw : E.w = l.w) (N : Nest) (junk : Fn) (arg : Arg) (args : List Arg)
    {x t v : Nat} {u : VMem.Var} (e : s.env (some x) = some u) (hx : VMem.view s x = some (.val t v)) (hcopy : (P.ty t).copy v ≠ none)
    {b : Base} {q q' : CV} (ht : L.ty t = .ptr q (.base b q')) (hb : b.kind = .cls) (h0 : L.bits t v ≠ 0)
    (hi : E.info b = true → E.dyn b (L.bits t v) = (E.tid b, L.bits t v))
    {o : Ptr} (ho : l.w.find (E.tid b) = some o) {n : Str} {f : Fn} (hd : DefinedMethod rank S h o n f) (hf : f.cls = some b)
    (hq : q'.c = true → f.const = true) :
    invokeNamed E N (l.fnOf junk) ⟨false, Reading.seen L s.mem x u, arg⟩ (f.signature S n) args =
      (pack f.params.length args).bind fun as => (getAll E N f.params as).bind fun bs => .ok (.called (some (.at (L.bits t v))) bs) := by
  have hr : Reachable rank E.w := hw ▸ ap.reachable
  obtain ⟨a, id, h1, h2, st, hl⟩ := C78_pointer hL r sh e hx ht
  have hn : ¬NullObject E (Reading.seen L s.mem x u) := by
    rintro ⟨c, hc, _⟩
    generalize hz : (0 : Addr) = z at hc
    cases hc with
    | object _ q' _ st' => cases (st.unique st').1
    | pointer _ q' q'' _ st' => rw [← (st.unique st').2, hl] at hz; exact h0 hz.symm
  have hc : ClassOf E (Reading.seen L s.mem x u) o := by
    refine ⟨b, L.bits t v, E.tid b, L.bits t v, hl ▸ .pointer b _ _ a hb st, ?_, by rw [hw]; exact ho⟩
    unfold Complete
    split
    · rename_i hh; exact (hi hh).symm
    · rfl
  rw [C74_by_signature_partial ap hw N junk ⟨false, Reading.seen L s.mem x u, arg⟩ args hn hc hd]
  have shl : ∀ (q q' : CV) (b : Base), Shallow (.ptr q (.base b q')) := fun _ _ _ => by simp [Shallow, CType.pointerArity]
  obtain ⟨hh, eh, hu⟩ := st.held
  have hto : to E (Reading.seen L s.mem x u) false (.ptr ⟨false, false⟩ (.base b ⟨f.const, false⟩)) = .ok (.copyOf a) := by
    refine (C43_to_partial hr st hn false _ (shl _ _ _) (shl _ _ _) (fun _ _ h => CType.noConfusion h) (fun _ _ h => CType.noConfusion h) _).2 ?_
    have hS : (Reading.seen L s.mem x u).type (if false = true then Attr.lrefConst else .lref) = ⟨.lref, .ptr ⟨false, false⟩ (.base b q')⟩ := by
      rw [vtype eh]; simp only [Bool.false_eq_true, if_false, Held.type, ← hu]
    rw [hS]
    refine .same a _ ?_ (.inl ⟨_, _, .ptr _ _, .ptr _ _, .base _ _ _⟩) (.object _ a st (fun _ _ h => CType.noConfusion h)) (.done (fun _ _ h => CType.noConfusion h) ?_)
    · refine (fits_iff_binds _ _ (shl _ _ _) (shl _ _ _) (.ptr _ (.base _ _)) (.ptr _ (.base _ _))).2 ?_
      refine ⟨⟨1, .ptr _ (.base _ _), .ptr _ (.base _ _)⟩, nofun, nofun, ?_, ?_⟩
      · intro k s t hs ht hk hc
        cases hs with
        | here => exact absurd rfl (hk rfl)
        | ptr _ hs =>
          cases hs
          cases ht with
          | ptr _ ht =>
            cases ht
            obtain ⟨c, vl⟩ := q'
            cases hc
            rw [hq rfl]
            exact .base _ _
      · intro k s t hs ht hk _ _ j t' hj hj0
        cases hs with
        | here => omega
        | ptr _ hs =>
          cases hs
          exact absurd rfl (hj0 (by omega))
    · have := sh.copies a t v ⟨x, id, h1, h2⟩
      rw [ht] at this
      have h3 : ((P.ty t).copy v).isNone = false := by cases hcv : (P.ty t).copy v <;> simp_all
      rw [h3] at this
      exact this
  have hcls : (describe ((Reading.seen L s.mem x u).type .none)).isClass = false := by
    rw [vtype eh]
    simp only [Held.type, ← hu]
    rw [describe_isClass]
    simp [CType.isPointer]
  have hcp : (describe ((Reading.seen L s.mem x u).type .none)).isClassPtr = true := by
    rw [vtype eh]
    simp only [Held.type, ← hu]
    rw [describe_isClassPtr]
    simp [CType.isPointer, CType.baseType, CType.pointerArity, hb]
  simp only [methodInvoke, hf, memberInvoke, object, eh, hcls, hcp, hto, if_true, Bool.false_eq_true, if_false, Ret.bind, pointee, hl]
  cases hp : pack f.params.length args <;> simp [Ret.bind, h0]

namespace ExR
open ExV ExI ExL

/-- the types of `sample`: `B` in the buffer, `D`, `L` and `R` on the heap, arrays of `B` and of `int`, `B *`, `int` -/
def ty : Nat → CType
  | 0 => cls B
  | 1 => cls D
  | 2 => cls ExV.L
  | 3 => .arr 3 (cls B)
  | 4 => cls R
  | 5 => .arr 4 Ex.int
  | 6 => .ptr ⟨false, false⟩ (cls B)
  | _ => Ex.int
/-- variants at even addresses, blocks at odd ones -/
def lay : Layout := ⟨ty, fun x => 2 * x + 2, fun b => 2 * b + 1, fun t v => t + v, 77⟩

theorem lay_of : lay.Of sample := by
  have tb : ∀ t, (sample.ty t).place = .small ∧ (∀ n e, ty t ≠ .arr n e) ∧ (ty t).sizeOf ≤ 16 ∨
      (sample.ty t).place = .big ∧ (∀ n e, ty t ≠ .arr n e) ∧ ¬(ty t).sizeOf ≤ 16 ∨
      (sample.ty t).place = .array ∧ ∃ n e, ty t = .arr n e := by
    intro t
    match t with
    | 0 => exact .inl ⟨rfl, nofun, by decide⟩
    | 1 => exact .inr (.inl ⟨rfl, nofun, by decide⟩)
    | 2 => exact .inr (.inl ⟨rfl, nofun, by decide⟩)
    | 3 => exact .inr (.inr ⟨rfl, _, _, rfl⟩)
    | 4 => exact .inr (.inl ⟨rfl, nofun, by decide⟩)
    | 5 => exact .inr (.inr ⟨rfl, _, _, rfl⟩)
    | 6 => exact .inl ⟨rfl, nofun, by decide⟩
    | _ + 7 => exact .inl ⟨rfl, nofun, by show Ex.int.sizeOf ≤ 16; decide⟩
  refine ⟨fun t => ?_, fun t => ?_, fun t => ?_, fun t b q h => ?_, fun x h => ?_, fun b h => ?_, fun x y h => ?_, fun x y h => ?_, fun x b h => ?_⟩
  · rcases tb t with ⟨h, a, b⟩ | ⟨h, a, b⟩ | ⟨h, n, e, a⟩
    · exact ⟨fun _ => ⟨a, b⟩, fun _ => h⟩
    · rw [h]; exact ⟨nofun, fun k => absurd k.2 b⟩
    · rw [h]; exact ⟨nofun, fun k => absurd a (k.1 n e)⟩
  · rcases tb t with ⟨h, a, b⟩ | ⟨h, a, b⟩ | ⟨h, n, e, a⟩
    · rw [h]; exact ⟨nofun, fun ⟨n, e, k⟩ => absurd k (a n e)⟩
    · rw [h]; exact ⟨nofun, fun ⟨n, e, k⟩ => absurd k (a n e)⟩
    · exact ⟨fun _ => ⟨n, e, a⟩, fun _ => h⟩
  · match t with
    | 0 | 1 | 2 | 3 | 4 | 5 | 6 | _ + 7 => rfl
  · match t with
    | 0 | 1 | 2 | 4 | _ + 7 => cases h; decide
    | 3 | 5 | 6 => cases h
  all_goals simp only [lay] at h; omega

/-- `variant x0{B}, x1{D}; variant x2{x1}; x1 = x0; x0.clear(); variant x3{std::ref(d)}, x4{&b};` -/
def cmds : List VMem.Cmd := [.value 0 0 7 true, .value 1 1 9 false, .copy 2 1, .assign 1 0, .clear 0, .ref 3 1 500, .value 4 6 1234 true]
def st : VMem.State := (VMem.run sample cmds VMem.init).2
end ExR

open ExR ExL ExI ExV in
/-- the hypotheses of the theorems above are met: a `B` moved about, on which the registered `B::f()` runs; a `D` on the
    heap; a reference -/
example : lay.Of sample ∧ Reach sample lay st ∧ (∃ σ, VMem.meaning sample cmds ⟨fun _ => none, 0⟩ = (.ok (), σ) ∧
      σ.σ 1 = some (.val 0 7) ∧ σ.σ 2 = some (.val 1 9) ∧ σ.σ 3 = some (.ref 1 500)) ∧
    VMem.view st 1 = some (.val 0 7) ∧ VMem.view st 2 = some (.val 1 9) ∧ VMem.view st 3 = some (.ref 1 500) ∧
    VMem.view st 4 = some (.val 6 1234) ∧ (sample.ty 6).copy 1234 ≠ none ∧ lay.bits 6 1234 ≠ 0 ∧
    (∃ E, Shows sample lay st E ∧ E.w = final.w ∧ E.info B = false ∧ final.w.find (E.tid B) = some 2) ∧
    DefinedMethod id spell prog 2 ['f'] f6 ∧ f6.cls = some B ∧ lay.ty 0 = .base B ⟨false, false⟩ := by
  have hr : Reach sample lay st := reach_run cmds .init (by decide +kernel)
  obtain ⟨E, h1, h2, h3, _, h4, _⟩ := C78_shown lay_of hr env'
  have p5 : Program id spell (prog.take 5) (Linked.init.runAll spell (prog.take 5)) := by
    simpa using Program.runAll (rank := id) (S := spell) .nil (prog.take 5) (by decide +kernel)
  exact ⟨lay_of, hr, ⟨_, rfl, by decide +kernel, by decide +kernel, by decide +kernel⟩, by decide +kernel, by decide +kernel, by decide +kernel,
    by decide +kernel, by decide +kernel, by decide +kernel, ⟨E, h1, h2, by rw [h3]; decide +kernel, by rw [h4]; decide +kernel⟩, ⟨_, _, _, rfl, p5, by decide +kernel⟩, rfl, rfl⟩

open ExR in
/-- an assignment through a reference -/
example : ∃ s', Wrote sample lay st 2 11 s' ∧ VMem.view s' 2 = some (.val 1 11) ∧ VMem.view s' 1 = some (.val 0 7) := by
  have hr : Reach sample lay st := reach_run cmds .init (by decide +kernel)
  obtain ⟨E, h1, _⟩ := C78_shown lay_of hr ExV.env
  have e : st.env (some 2) = some ⟨.own 1, .block 1⟩ := by decide +kernel
  have hv : VMem.view st 2 = some (.val 1 9) := by decide +kernel
  obtain ⟨sd, a, id, ho, hi, hs⟩ := (C78_stands lay_of hr h1 e).2.1 1 9 hv
  have w : Wrote sample lay st 2 11 (overwrite st id 1 11) := .mk h1 e (.inl ⟨rfl, rfl⟩) (ownType sd hs).1 ho hi
  have k := (C78_write lay_of hr w).1 1 9 hv
  exact ⟨_, w, by rw [k]; simp [upd], by rw [k, upd_ne _ _ (by decide)]; decide +kernel⟩

end Rtti.Props
