import Verif.Props.Registry
import Verif.Props.Exact
import Verif.Props.Invoke
import Verif.Props.TypeList

set_option autoImplicit false

/-!
Exact conditions, continued: handles kept over the end of the registry (C04), functions that are not `const`
called through a pointer to `const` (C48), the numbers of a type list made of type lists (C54).
-/

namespace Rtti.Reg

/-- the registry is gone afterwards exactly when it was before, and then what is known has not changed -/
structure Still (r r' : Reg) : Prop where
  dead : r'.types = .destroyed ↔ r.types = .destroyed
  info : r.types = .destroyed → r'.info = r.info

theorem Still.refl (r : Reg) : Still r r := ⟨Iff.rfl, fun _ => rfl⟩

theorem Still.trans {a b c : Reg} (h : Still a b) (h' : Still b c) : Still a c :=
  ⟨h'.dead.trans h.dead, fun hd => (h'.info (h.dead.2 hd)).trans (h.info hd)⟩

theorem still_touch (r : Reg) : Still r r.touch := ⟨touch_destroyed, fun _ => by simp⟩

theorem still_ofId (r : Reg) (a : Nat) : Still r (r.ofId a).1 := by
  rw [ofId_eq]; exact still_touch r

theorem still_register (r : Reg) (n : Str) (d : Desc) (c : Nat) : Still r (r.registerMetaType n d c).1 := by
  rw [registerMetaType_eq]
  by_cases hd : r.types = .destroyed
  · rw [if_pos hd]; exact .refl r
  · rw [if_neg hd]
    have h : (r.touch.addTypeInfo n d c).1.types = r.touch.types := by
      unfold addTypeInfo
      split
      · rfl
      · split <;> rfl
    exact ⟨by rw [h]; exact touch_destroyed, fun h => absurd h hd⟩

theorem still_initHolder (nm : RType → Str) (r : Reg) (T : RType) (c : Nat) : Still r (r.initHolder nm T c).1 := by
  have h := still_register r (nm T) (describe T) c
  exact ⟨h.dead, h.info⟩

theorem still_decayed (nm : RType → Str) (r : Reg) (T : RType) : Still r (r.metaTypeIdDecayed nm T).1 := by
  unfold metaTypeIdDecayed
  split
  · exact .refl r
  · split
    · exact .refl r
    · exact still_initHolder ..

theorem still_metaTypeId (nm : RType → Str) (r : Reg) (T : RType) : Still r (r.metaTypeId nm T).1 := by
  unfold metaTypeId
  split
  · exact .refl r
  · split
    · exact .refl r
    · dsimp only
      split
      · exact still_initHolder ..
      · exact (still_decayed ..).trans (still_initHolder ..)

theorem still_withList {A : Type} (r : Reg) (a b : Nat) (x : A) (f : Reg → Nat × Nat → Res (Reg × A))
    (hf : ∀ r k r' y, f r k = .val (r', y) → Still r r') {r' : Reg} {y : A}
    (e : r.withList a b x f = .val (r', y)) : Still r r' := by
  unfold withList at e
  split at e
  · cases e; exact .refl _
  · have hc : ∀ r1, r.customConverters = some r1 → Still r r1 := by
      intro r1 h
      unfold customConverters at h
      split at h
      · cases h
      · cases h; exact .refl r
      · cases h; exact ⟨Iff.rfl, fun _ => rfl⟩
    cases h : r.customConverters with
    | none => simp only [h] at e; cases e; exact .refl _
    | some r1 =>
      simp only [h] at e
      refine (hc r1 h).trans ?_
      cases hk : r1.key a b with
      | val k => rw [hk] at e; exact hf _ _ _ _ e
      | throw => rw [hk] at e; cases e
      | ub => rw [hk] at e; cases e
      | diverge => rw [hk] at e; cases e

theorem bind_val {A B : Type} {x : Res A} {f : A → Res B} {b : B} (e : x.bind f = .val b) :
    ∃ a, x = .val a ∧ f a = .val b := by
  cases x with
  | val a => exact ⟨a, rfl, e⟩
  | throw => cases e
  | ub => cases e
  | diverge => cases e

theorem still_has {r : Reg} {a b : Nat} {p : Reg × Bool} (e : r.hasConverter a b = .val p) : Still r p.1 :=
  ((still_ofId r a).trans (still_ofId _ b)).trans
    (still_withList _ _ _ _ _ (by intro r k r' y h; cases h; exact .refl _) (y := p.2) e)

theorem still_unreg {r : Reg} {a b : Nat} {p : Reg × Unit} (e : r.unregisterConverter a b = .val p) : Still r p.1 :=
  ((still_ofId r a).trans (still_ofId _ b)).trans
    (still_withList _ _ _ _ _ (by intro r k r' y h; cases h; exact ⟨Iff.rfl, fun _ => rfl⟩) (y := p.2) e)

theorem still_reg {r : Reg} {a b : Nat} {s : Slot} {p : Reg × Bool} (e : r.registerConverter a b s = .val p) :
    Still r p.1 :=
  ((still_ofId r a).trans (still_ofId _ b)).trans
    (still_withList _ _ _ _ _ (by
      intro r k r' y h
      split at h
      · cases h; exact .refl _
      · cases h; exact ⟨Iff.rfl, fun _ => rfl⟩) (y := p.2) e)

theorem still_convert {r : Reg} {a b : Nat} {p : Reg × Option Nat} (e : r.convert a b = .val p) : Still r p.1 :=
  ((still_ofId r a).trans (still_ofId _ b)).trans
    (still_withList _ _ _ _ _ (by
      intro r k r' y h
      split at h
      · cases h; exact .refl _
      · split at h
        · cases h; exact .refl _
        · cases h) (y := p.2) e)

theorem still_useSlot (r : Reg) (s : Slot) (fn : Nat) : Still r (r.useSlot s fn) := by
  unfold useSlot
  split
  · exact ⟨Iff.rfl, fun _ => rfl⟩
  · exact .refl r

/-- nothing but a destructor ends the registry, and what it knew does not come back -/
theorem still_step {nm : RType → Str} {r r' : Reg} {op : RegOp} {o : RegOut} (e : r.step nm op = .val (r', o))
    (hd : op ≠ .destroy) : Still r r' := by
  cases op with
  | reg n d c => cases e; exact still_register ..
  | lookup n =>
    simp only [step, ofName_eq, typeId_eq] at e
    cases e
    exact (still_touch r).trans (still_touch _)
  | observe a =>
    obtain ⟨x, _, e⟩ := bind_val e
    cases e; exact still_ofId ..
  | observeOld a =>
    obtain ⟨x, _, e⟩ := bind_val e
    cases e; exact .refl _
  | idOf T => cases e; exact still_metaTypeId ..
  | compatible a b =>
    obtain ⟨x, _, e⟩ := bind_val e
    cases e; exact (still_ofId r a).trans (still_ofId _ b)
  | has a b => obtain ⟨x, h, e⟩ := bind_val e; cases e; exact still_has h
  | convert a b => obtain ⟨x, h, e⟩ := bind_val e; cases e; exact still_convert h
  | unreg a b => obtain ⟨x, h, e⟩ := bind_val e; cases e; exact still_unreg h
  | hasT S T =>
    obtain ⟨x, h, e⟩ := bind_val e; cases e
    exact ((still_metaTypeId nm r S).trans (still_metaTypeId nm _ T)).trans (still_has h)
  | convertT S T =>
    obtain ⟨x, h, e⟩ := bind_val e; cases e
    exact ((still_metaTypeId nm r S).trans (still_metaTypeId nm _ T)).trans (still_convert h)
  | unregT S T =>
    obtain ⟨x, h, e⟩ := bind_val e; cases e
    exact ((still_metaTypeId nm r S).trans (still_metaTypeId nm _ T)).trans (still_unreg h)
  | regT S T f fn =>
    obtain ⟨x, h, e⟩ := bind_val e; cases e
    exact (((still_useSlot r _ fn).trans (still_metaTypeId nm _ _)).trans (still_metaTypeId nm _ _)).trans (still_reg h)
  | destroy => exact absurd rfl hd

/-- nothing is known once the registry is gone -/
theorem dead_step {nm : RType → Str} {r r' : Reg} {op : RegOp} {o : RegOut} (e : r.step nm op = .val (r', o))
    (h : r.types = .destroyed → r.info = fun _ => none) : r'.types = .destroyed → r'.info = fun _ => none := by
  by_cases hd : op = .destroy
  · subst hd
    obtain ⟨x, hx, e⟩ := bind_val e
    cases e
    unfold destroyNext at hx
    split at hx
    · cases hx; exact h
    · cases hx; exact fun _ => rfl
    · cases hx; exact h
    · obtain ⟨p, hp, e⟩ := bind_val hx
      cases e
      have s := ((still_metaTypeId nm _ _).trans (still_metaTypeId nm _ _)).trans (still_unreg hp)
      intro hd
      have hd' := s.dead.1 hd
      exact (s.info hd').trans (h hd')
  · have s := still_step e hd
    intro hd'
    have := s.dead.1 hd'
    exact (s.info this).trans (h this)

theorem dead_run {nm : RType → Str} (ops : List RegOp) : ∀ {r r' : Reg} {outs : List RegOut},
    r.run nm ops = .val (r', outs) → (r.types = .destroyed → r.info = fun _ => none) →
    r'.types = .destroyed → r'.info = fun _ => none := by
  induction ops with
  | nil => intro r r' outs e h; cases e; exact h
  | cons op ops ih =>
    intro r r' outs e h
    obtain ⟨r1, o, outs', e1, e2, rfl⟩ := run_cons_val e
    exact ih e2 (dead_step e1 h)

end Rtti.Reg

namespace Rtti.Props

open Rtti.Spec

/-- C04: exactly when using a handle made earlier goes wrong: the program was told the id, it is not the
    invalid one, and the registry has been destroyed since. In every other case the handle answers, and then
    it answers with the entry. -/
theorem C04_old_handle_exact (nm : RType → Str) (ops : List RegOp) (r : Reg) (outs : List RegOut)
    (e : Reg.init.run nm ops = .val (r, outs)) (hl : LegalProgram ops outs) (k : Nat) (hk : k ∈ known outs) :
    (r.step nm (.observeOld k) = .ub ↔ k ≠ 0 ∧ r.types = .destroyed) ∧
    (r.step nm (.observeOld k) ≠ .ub → ∃ o, r.step nm (.observeOld k) = .val (r, .obs o) ∧ (o.valid = true ↔ k ≠ 0)) := by
  have hg := (Reg.run_ok ops e hl).2 k hk
  have hd := Reg.dead_run ops e (by intro _; rfl)
  by_cases h0 : k = 0
  · subst h0
    refine ⟨⟨?_, fun h => absurd rfl h.1⟩, fun _ => ⟨neutral, ?_, ?_⟩⟩
    · intro h; simp [Reg.step, Reg.observe, Res.bind] at h
    · simp [Reg.step, Reg.observe, Res.bind, neutral]
    · simp [neutral]
  · by_cases ht : r.types = .destroyed
    · have hi : r.info k = none := by rw [hd ht]
      have : r.step nm (.observeOld k) = .ub := by simp [Reg.step, Reg.observe, h0, Reg.deref, hi, Res.bind]
      exact ⟨⟨fun _ => ⟨h0, ht⟩, fun _ => this⟩, fun h => absurd this h⟩
    · rcases hg with h | h | ⟨i, hi⟩
      · exact absurd h h0
      · exact absurd h ht
      · have : r.step nm (.observeOld k) = .val (r, .obs ⟨true, i.name, i.desc, i.decay⟩) := by
          simp [Reg.step, Reg.observe, h0, Reg.deref, hi, Res.bind]
        refine ⟨⟨fun h => ?_, fun h => absurd h.2 ht⟩, fun _ => ⟨_, this, by simp [h0]⟩⟩
        rw [this] at h; cases h

/-- a legal program that keeps an id over the end of the registry -/
example : ∃ r outs, Reg.init.run Rtti.Ex.rname [.idOf Ex.vi, .destroy] = .val (r, outs) ∧ LegalProgram [.idOf Ex.vi, .destroy] outs ∧
    1 ∈ known outs ∧ r.types = .destroyed := by
  refine ⟨_, _, rfl, ?_, by decide, rfl⟩
  intro i hi
  match i, hi with
  | 0, _ => trivial
  | 1, _ => trivial

end Rtti.Props

namespace Rtti.Props

open Rtti.Val Rtti.Spec

/-- C48: exactly when a function that is not `const` is called through a pointer to a `const` object: when the user has
    registered a conversion between the two pointer types (looked up without their `const`) and it does not fail. The function
    then runs on what the conversion gave, not on the object pointed to. -/
theorem C48_const_pointer_exact {rank : TypeId → Nat} {E : Env} (r : Reachable rank E.w) (N : Nest) {v : Vnt} (fv : Fine E v) (f : Fn)
    (hm : f.const = false) (b : Base) (isConst : Bool) (args : List Arg) {c : Base} {q q' : CV} {x : Addr}
    (hc : c.kind = .cls) (st : Stands v (.ptr q (.base c q')) x) (hq : q'.c = true) (o : Option Obj) (bs : List Bound) :
    memberInvoke E N f b isConst v args = .ok (.called o bs) ↔
      (∃ as, pack f.params.length args = .ok as ∧ getAll E N f.params as = .ok bs) ∧
      ∃ k, E.conv (.ptr ⟨false, false⟩ (.base c ⟨false, false⟩)) (.ptr ⟨false, false⟩ (.base b ⟨false, false⟩)) = some k ∧
        (∃ good, k.call x = .returns good false ∧ (k.kind = .functorOk → good = true)) ∧ o = some (.made k.fn x) := by
  have eo : object E b f.const isConst v = (to E v isConst (.ptr ⟨false, false⟩ (.base b ⟨false, false⟩))).bind fun m =>
      if pointee E m = .at 0 then .ub else .ok (some (pointee E m)) := by
    unfold object
    rw [if_neg (held_of st), isClass_of st, isClassPtr_of st, hm]
    simp [CType.baseType, CType.isPointer, hc, CType.pointerArity]
  have hf := fits_ptr st isConst b ⟨false, false⟩ ⟨false, false⟩
  have hnf : ¬Fits (v.type (if isConst then .lrefConst else .lref)) ⟨.none, .ptr ⟨false, false⟩ (.base b ⟨false, false⟩)⟩ := by
    rw [hf]; intro h; exact absurd (h hq) (by simp)
  have hP : ∀ y, Place v y → y = x := by
    intro y hy
    cases hy with
    | object u y st' _ => exact (st.unique st').2.symm
    | array n e y st' => obtain ⟨e', _⟩ := st.unique st'; cases e'
  have hS : (v.type (if isConst then .lrefConst else .lref)).t.fullDecay = .ptr ⟨false, false⟩ (.base c ⟨false, false⟩) := by
    obtain ⟨h, e, hu⟩ := st.held
    rw [vtype e, type_fullDecay, ← hu]; rfl
  have hto := C43_to_partial r st fv.null isConst (.ptr ⟨false, false⟩ (.base b ⟨false, false⟩)) (sh_ptr _ _ _) (sh_ptr _ _ _)
    (by intro n e h; cases h) (by intro b q h; cases h)
  have obj : ∀ o, object E b f.const isConst v = .ok (some o) ↔
      ∃ k, E.conv (.ptr ⟨false, false⟩ (.base c ⟨false, false⟩)) (.ptr ⟨false, false⟩ (.base b ⟨false, false⟩)) = some k ∧
        (∃ good, k.call x = .returns good false ∧ (k.kind = .functorOk → good = true)) ∧ o = .made k.fn x := by
    intro o
    rw [eo]
    constructor
    · intro h
      generalize hg : to E v isConst (.ptr ⟨false, false⟩ (.base b ⟨false, false⟩)) = R at h
      have gv := (hto R).1 hg
      cases gv with
      | same y R hfit => exact absurd hfit hnf
      | up y R hfit => exact absurd hfit hnf
      | upPtr y hfit => exact absurd hfit hnf
      | conv y cv R hnd hp hcv hR =>
        have := hP y hp; subst this
        rw [hS] at hcv
        cases hR with
        | done g h1 h2 =>
          simp [Ret.bind, pointee] at h
          exact ⟨cv, hcv, ⟨g, h1, h2⟩, h.symm⟩
        | declined => cases h
        | swallowed => cases h
        | threw => cases h
      | none => cases h
    · rintro ⟨k, hk, ⟨g, h1, h2⟩, rfl⟩
      rw [(hto (.ok (.converted k.fn x))).2 (.conv x k _ (fun h => hnf h.1) (.object _ _ st (by intro n e h; cases h)) (by rw [hS]; exact hk) (.done g h1 h2))]
      simp [Ret.bind, pointee]
  have nn : object E b f.const isConst v ≠ .ok none := by
    rw [eo]
    cases to E v isConst (.ptr ⟨false, false⟩ (.base b ⟨false, false⟩)) with
    | ok m => simp only [Ret.bind]; split <;> simp
    | _ => simp [Ret.bind]
  unfold memberInvoke
  constructor
  · intro h
    cases hp : pack f.params.length args with
    | ok as =>
      rw [hp] at h
      simp only [Ret.bind] at h
      cases ho : object E b f.const isConst v with
      | ok o' =>
        rw [ho] at h
        cases o' with
        | none => exact absurd ho nn
        | some o' =>
          dsimp only at h
          cases hg : getAll E N f.params as with
          | ok bs' =>
            rw [hg] at h
            cases h
            obtain ⟨k, h1, h2, h3⟩ := (obj o').1 ho
            exact ⟨⟨as, rfl, hg⟩, k, h1, h2, by rw [h3]⟩
          | _ => rw [hg] at h; cases h
      | _ => rw [ho] at h; cases h
    | _ => rw [hp] at h; cases h
  · rintro ⟨⟨as, hp, hg⟩, k, h1, h2, rfl⟩
    rw [hp]
    simp only [Ret.bind]
    rw [(obj _).2 ⟨k, h1, h2, rfl⟩]
    dsimp only
    rw [hg]

namespace ExX
open ExV
/-- `D const *` in place -/
def vPCD : Vnt := ⟨some ⟨false, .ptr ⟨false, false⟩ (ccls D)⟩, 1000, 5000⟩
/-- a conversion from `D *` to `B *` is registered -/
def env' : Env :=
  { env with
    conv := fun s t => if s = .ptr ⟨false, false⟩ (cls D) ∧ t = .ptr ⟨false, false⟩ (cls B) then
      some ⟨7, .functor, fun _ => .returns true false⟩ else none }
theorem standsPCD : Stands vPCD (.ptr ⟨false, false⟩ (.base D ⟨true, false⟩)) 1000 :=
  .inPlace (.ptr ⟨false, false⟩ (ccls D)) rfl (by simp) (by decide)
theorem soundPCD : Sound env' vPCD := by
  refine ⟨by decide, by decide, fun t a h => ?_, fun b q a h => ?_⟩
  · rw [(h.unique standsPCD).2]; decide
  · obtain ⟨e, _⟩ := h.unique standsPCD; cases e
theorem finePCD : Fine env' vPCD := ⟨soundPCD, ⟨_, _, standsPCD, sh_ptr _ _ _⟩, fun ⟨_, _, h⟩ => by cases h⟩
end ExX

open ExV ExI ExX in
/-- the hypotheses hold together, and the conversion decides -/
example : Fine env' vPCD ∧ f6.const = false ∧ Stands vPCD (.ptr ⟨false, false⟩ (.base D ⟨true, false⟩)) 1000 ∧
    memberInvoke env' nest f6 B false vPCD [] = .ok (.called (some (.made 7 1000)) []) :=
  ⟨finePCD, rfl, standsPCD,
    (C48_const_pointer_exact (E := env') Ex.diamond_reachable nest finePCD f6 rfl B false [] rfl standsPCD rfl _ _).2
      ⟨⟨_, rfl, rfl⟩, ⟨7, .functor, fun _ => .returns true false⟩, rfl, ⟨true, rfl, nofun⟩, rfl⟩⟩

/-! ### C54 -/

open Mpl

/-- what is left of a list of types when a list or tuple that is its only element is opened, again and again -/
inductive Unpacked : List Ty → List Ty → Prop
  | done (l : List Ty) : (∀ x, l ≠ [.list x] ∧ l ≠ [.tuple x]) → Unpacked l l
  | list (l m : List Ty) : Unpacked l m → Unpacked [.list l] m
  | tuple (l m : List Ty) : Unpacked l m → Unpacked [.tuple l] m

/-- C54: the numbers `index_sequence_for` gives, for every list of types: one for each type of the innermost list. -/
theorem C54_index_sequence_for_exact (l : List Ty) :
    ∃ m, Unpacked l m ∧ indexSequenceFor l = List.range m.length ∧ indexSequenceFor [.list l] = List.range m.length := by
  have h : ∃ m, Unpacked l m ∧ indexSequenceFor l = List.range m.length := by
    induction l using indexSequenceFor.induct with
    | case1 l ih =>
      obtain ⟨m, h1, h2⟩ := ih
      exact ⟨m, .list l m h1, by rw [indexSequenceFor, h2]⟩
    | case2 l ih =>
      obtain ⟨m, h1, h2⟩ := ih
      exact ⟨m, .tuple l m h1, by rw [indexSequenceFor, h2]⟩
    | case3 l h1 h2 =>
      have h := fun x => And.intro (h1 x) (h2 x)
      exact ⟨l, .done l h, (C54_index_sequence_for_partial l h).1⟩
  obtain ⟨m, h1, h2⟩ := h
  exact ⟨m, h1, h2, by rw [indexSequenceFor, h2]⟩

theorem unpacked_unique {l m m' : List Ty} (h : Unpacked l m) (h' : Unpacked l m') : m = m' := by
  induction h generalizing m' with
  | done l hl =>
    cases h' with
    | done => rfl
    | list => exact absurd rfl (hl _).1
    | tuple => exact absurd rfl (hl _).2
  | list l m _ ih =>
    cases h' with
    | done _ hl => exact absurd rfl (hl _).1
    | list _ _ h => exact ih h
  | tuple l m _ ih =>
    cases h' with
    | done _ hl => exact absurd rfl (hl _).2
    | tuple _ _ h => exact ih h

/-- C54: there is one number for each type exactly when opening the list does not change how many types there are. -/
theorem C54_index_sequence_for_iff (l : List Ty) :
    indexSequenceFor [.list l] = List.range l.length ↔ ∀ m, Unpacked l m → m.length = l.length := by
  obtain ⟨m, h1, _, h2⟩ := C54_index_sequence_for_exact l
  rw [h2]
  constructor
  · intro h m' h'
    rw [unpacked_unique h' h1]
    simpa using congrArg List.length h
  · intro h; rw [h m h1]

/-- a tuple of two tuples inside a list inside a tuple: two numbers; a pair as only parameter: wrong; a tuple of one: right -/
example : Unpacked [.tuple [.list [.tuple [], .atom 1]]] [.tuple [], .atom 1] ∧
    indexSequenceFor [.tuple [.list [.tuple [], .atom 1]]] = [0, 1] ∧
    indexSequenceFor [.list [.tuple [.atom 3]]] = [0] ∧ indexSequenceFor [.list [.tuple []]] = [] := by
  refine ⟨.tuple _ _ (.list _ _ (.done _ (by simp))), ?_⟩
  simp [indexSequenceFor, indexSequenceFor.size', makeIndexSequence]

end Rtti.Props
