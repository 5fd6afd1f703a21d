import Verif.Lemmas.CallLink
import Verif.Props.CallMem
import Verif.Props.Invoke
import Verif.Props.Errors
/-! C81 for calls through the reflection interface: the objects made for the arguments as `Arg.get` binds them. -/
set_option autoImplicit false
namespace Rtti.Props
open Rtti.CallMem Val VMem

/-- A call that reaches the user's function: it gets exactly the values its parameters are bound to, in order, and the call ends as the function does.
    Afterwards the variants, objects and blocks there were are as before; for every parameter bound to a converted value that fits into the buffer of
    a variant one object of its type was made and never destroyed, and nothing else. -/
theorem C81_reached (P : Prog) (hoom : ∀ b, P.oom b = false) (E : Env) (N : Nest) (V : Codes) (g : Agree P E V) (throws : List Nat → Bool) (f : Fn)
    (args : List Arg) (bs : List Bound) (h : staticInvoke E N f args = .ok (.called none bs)) (x : Nat) (s : State)
    (hs : ∀ k, x ≤ k → k < x + f.params.length → s.env (some k) = none) (hn : s.env none = none) :
    let r := invoke P E N V throws f args x s
    r.1 = (if throws (valuesOf V f.params bs) then .threw else .ok ()) ∧ r.2.env = s.env ∧
    (∀ id, id < s.mem.nextObj → r.2.mem.objs id = s.mem.objs id) ∧
    (∀ b, b < s.mem.nextBlock → r.2.mem.blocks b = s.mem.blocks b) ∧
    (∀ t, ctors (· == t) r.2.mem.log + dtors (· == t) s.mem.log =
      ctors (· == t) s.mem.log + dtors (· == t) r.2.mem.log + (lostOf P V f.params bs).count t) ∧
    allocs r.2.mem.log + frees s.mem.log = allocs s.mem.log + frees r.2.mem.log := by
  unfold staticInvoke at h
  obtain ⟨as, hp, h⟩ := bind_ok' h
  obtain ⟨bs', hb, h⟩ := bind_ok' h
  cases h
  have hl := params_le (E := E) (N := N) (V := V) f.params as
  have hs' : ∀ k, x ≤ k → k < x + (paramsOf E N V f.params as).length → s.env (some k) = none :=
    fun k h1 h2 => hs k h1 (by omega)
  have hc := callS_linked hoom N g throws f.params as s.mem.nextBlock [] bs hb
  have ho := (C81_outcome P throws _ (params_fine N g f.params as) x s hs' hn).1
  have he := C81_exact P throws _ (params_fine N g f.params as) x s hs' hn (by rw [hc]; simp only; split <;> nofun)
  simp only [hc, List.nil_append] at ho he
  simp only [invoke, hp]
  refine ⟨ho, he.1, he.2.1, he.2.2.1, fun t => ?_, by simpa using he.2.2.2.2⟩
  exact he.2.2.2.1 (· == t)

/-- A call that is refused throws and does not run the user's function: it is the same whatever that does. What is lost are one object for every converted
    value in a buffer before the argument that fails, and the object made by a converter that declined. -/
theorem C81_refused (P : Prog) (hoom : ∀ b, P.oom b = false) (E : Env) (N : Nest) (V : Codes) (g : Agree P E V) (throws : List Nat → Bool) (f : Fn)
    (args : List Arg) (e : Exc) (h : staticInvoke E N f args = .throw e) (x : Nat) (s : State)
    (hs : ∀ k, x ≤ k → k < x + f.params.length → s.env (some k) = none) (hn : s.env none = none) :
    let r := invoke P E N V throws f args x s
    (∀ throws', invoke P E N V throws' f args x s = r) ∧ r.1 = .threw ∧ r.2.env = s.env ∧
    (∀ id, id < s.mem.nextObj → r.2.mem.objs id = s.mem.objs id) ∧
    (∀ b, b < s.mem.nextBlock → r.2.mem.blocks b = s.mem.blocks b) ∧
    (∀ t, ctors (· == t) r.2.mem.log + dtors (· == t) s.mem.log = ctors (· == t) s.mem.log + dtors (· == t) r.2.mem.log +
      (match pack f.params.length args with | .ok as => lostUntil P E N V f.params as | _ => []).count t) ∧
    allocs r.2.mem.log + frees s.mem.log = allocs s.mem.log + frees r.2.mem.log := by
  unfold staticInvoke at h
  rcases bind_throw' h with hp | ⟨as, hp, h⟩
  · simp only [invoke, hp]
    refine ⟨fun _ => trivial, trivial, trivial, fun _ _ => trivial, fun _ _ => trivial, fun t => by simp, trivial⟩
  rcases bind_throw' h with hb | ⟨bs, _, h⟩
  · have hl := params_le (E := E) (N := N) (V := V) f.params as
    have hs' : ∀ k, x ≤ k → k < x + (paramsOf E N V f.params as).length → s.env (some k) = none :=
      fun k h1 h2 => hs k h1 (by omega)
    have hc := callS_threw hoom N g throws e f.params as s.mem.nextBlock [] hb
    have ho := (C81_outcome P throws _ (params_fine N g f.params as) x s hs' hn).1
    have he := C81_exact P throws _ (params_fine N g f.params as) x s hs' hn (by rw [hc]; nofun)
    simp only [hc] at ho he
    simp only [invoke, hp]
    refine ⟨fun throws' => ?_, ho, he.1, he.2.1, he.2.2.1, fun t => he.2.2.2.1 (· == t), by simpa using he.2.2.2.2⟩
    simp only [call, body_threw N g throws' throws e f.params as hb]
  · cases h

/-- what is left when the call `ps` is made in `s`, ending as `o`: the variants, objects and blocks there were, and one object of each of these types
    more -/
def Leaves (s : State) (r : Out Unit × State) (o : Out Unit) (lost : List Nat) : Prop :=
  r.1 = o ∧ r.2.env = s.env ∧
  (∀ id, id < s.mem.nextObj → r.2.mem.objs id = s.mem.objs id) ∧
  (∀ b, b < s.mem.nextBlock → r.2.mem.blocks b = s.mem.blocks b) ∧
  (∀ t, ctors (· == t) r.2.mem.log + dtors (· == t) s.mem.log = ctors (· == t) s.mem.log + dtors (· == t) r.2.mem.log + lost.count t) ∧
  allocs r.2.mem.log + frees s.mem.log = allocs s.mem.log + frees r.2.mem.log

theorem leaves_call {P : Prog} {throws : List Nat → Bool} {ps : List Param} (hf : ∀ p ∈ ps, p.Fine P) {x : Nat} {s : State}
    (hs : ∀ k, x ≤ k → k < x + ps.length → s.env (some k) = none) (hn : s.env none = none) {o : Out Unit} {lost : List Nat}
    (hc : callS P throws s.mem.nextBlock [] ps = (o, lost, 0)) (ho : o ≠ .terminated) : Leaves s (call P throws x ps s) o lost := by
  have h1 := (C81_outcome P throws ps hf x s hs hn).1
  have he := C81_exact P throws ps hf x s hs hn (by rw [hc]; exact ho)
  rw [hc] at h1
  simp only [hc] at he
  exact ⟨h1, he.1, he.2.1, he.2.2.1, fun t => he.2.2.2.1 (· == t), by simpa using he.2.2.2.2⟩

theorem Leaves.none (s : State) (o : Out Unit) : Leaves s (o, s) o [] :=
  ⟨rfl, rfl, fun _ _ => rfl, fun _ _ => rfl, fun t => by simp, rfl⟩

/-- C81 for member functions, reached: called on that object with the values its parameters are bound to; what remains is as for static functions,
    the pointer made of the instance is gone. -/
theorem C81_member_reached (P : Prog) (hoom : ∀ b, P.oom b = false) (E : Env) (N : Nest) (V : Codes) (g : Agree P E V)
    (throws : Val.Obj → List Nat → Bool) (f : Fn) (b : Base) (isConst : Bool) (v : Vnt) (args : List Arg) (o : Val.Obj) (bs : List Bound)
    (h : memberInvoke E N f b isConst v args = .ok (.called (some o) bs)) (x : Nat) (s : State)
    (hs : ∀ k, x ≤ k → k ≤ x + f.params.length → s.env (some k) = none) (hn : s.env none = none) :
    Leaves s (invokeMember P E N V throws f b isConst v args x s) (if throws o (valuesOf V f.params bs) then .threw else .ok ())
      (lostOf P V f.params bs) := by
  unfold memberInvoke at h
  obtain ⟨as, hp, h⟩ := bind_ok' h
  obtain ⟨o', ho, h⟩ := bind_ok' h
  cases o' with
  | none => cases h
  | some o' =>
  obtain ⟨bs', hb, h⟩ := bind_ok' h
  cases h
  have hl := params_le (E := E) (N := N) (V := V) f.params as
  have nt : (if throws o (valuesOf V f.params bs) then Out.threw else .ok ()) ≠ Out.terminated := by split <;> nofun
  simp only [invokeMember, hp]
  unfold object at ho
  split at ho
  · cases ho
  · rename_i h1
    rw [if_neg h1]
    split at ho
    · rename_i h2
      rw [if_pos h2]
      split at ho
      · cases ho
      · rename_i h3
        rw [if_neg h3]
        obtain ⟨a, ha, ho⟩ := bind_ok' ho
        cases ho
        simp only [ha]
        exact leaves_call (params_fine N g f.params as) (fun k k1 k2 => hs k k1 (by omega)) hn
          (by simpa using callS_linked hoom N g (throws (.at a)) f.params as s.mem.nextBlock [] bs hb) nt
    · rename_i h2
      rw [if_neg h2]
      split at ho
      · rename_i h3
        rw [if_pos h3]
        obtain ⟨m, hm, ho⟩ := bind_ok' ho
        split at ho
        · cases ho
        · rename_i h4
          cases ho
          have hm' : Val.to E v isConst (instancePtr b f.const) = .ok m := hm
          simp only [hm', if_neg h4]
          refine leaves_call (fun p hq => ?_) (fun k k1 k2 => hs k k1 (by simp at k2; omega)) hn ?_ nt
          · rcases List.mem_cons.1 hq with rfl | hq
            · exact ⟨g.array _, .inr (g.movable _)⟩
            · exact params_fine N g f.params as p hq
          · simp only [callS, toS_ok g hm', callS_linked hoom N g _ f.params as _ _ bs hb, List.nil_append, List.singleton_append, List.tail_cons]
            rfl
      · cases ho

/-- C81 for member functions, refused: an exception, whatever the function does; lost are the objects of `C81_refused`, or a pointer made from the
    instance by a converter that declined. -/
theorem C81_member_refused (P : Prog) (hoom : ∀ b, P.oom b = false) (E : Env) (N : Nest) (V : Codes) (g : Agree P E V)
    (throws : Val.Obj → List Nat → Bool) (f : Fn) (b : Base) (isConst : Bool) (v : Vnt) (args : List Arg) (e : Exc)
    (h : memberInvoke E N f b isConst v args = .throw e) (x : Nat) (s : State)
    (hs : ∀ k, x ≤ k → k ≤ x + f.params.length → s.env (some k) = none) (hn : s.env none = none) :
    (∀ throws', invokeMember P E N V throws' f b isConst v args x s = invokeMember P E N V throws f b isConst v args x s) ∧
    Leaves s (invokeMember P E N V throws f b isConst v args x s) .threw
      (match pack f.params.length args, object E b f.const isConst v with
        | .ok as, .ok _ => lostUntil P E N V f.params as
        | .ok _, .throw .badVariantConvert => lostInstance E V b f.const isConst v
        | _, _ => []) := by
  unfold memberInvoke at h
  rcases bind_throw' h with hp | ⟨as, hp, h⟩
  · simp only [invokeMember, hp]
    exact ⟨fun _ => trivial, .none s _⟩
  have hl := params_le (E := E) (N := N) (V := V) f.params as
  rcases bind_throw' h with ho | ⟨o, ho, h⟩
  · simp only [invokeMember, hp, ho]
    unfold object at ho
    split at ho
    · cases ho
    · rename_i h1
      simp only [if_neg h1]
      split at ho
      · rename_i h2
        simp only [if_pos h2]
        split at ho
        · rename_i h3
          simp only [if_pos h3]
          cases ho
          exact ⟨fun _ => trivial, .none s _⟩
        · rename_i h3
          simp only [if_neg h3]
          rcases bind_throw' ho with ha | ⟨a, _, ho⟩
          · simp only [ha]
            cases (C77_casts E v _ _ ⟨.none, .base b ⟨false, false⟩⟩ false e).1 ha
            exact ⟨fun _ => trivial, .none s _⟩
          · cases ho
      · rename_i h2
        simp only [if_neg h2]
        split at ho
        · rename_i h3
          simp only [if_pos h3]
          rcases bind_throw' ho with hm | ⟨m, _, ho⟩
          · have hm' : Val.to E v isConst (instancePtr b f.const) = .throw e := hm
            simp only [hm']
            cases e with
            | badVariantConvert =>
              refine ⟨fun _ => rfl, leaves_call (fun p hq => ?_) (fun k k1 k2 => hs k k1 (by simp at k2; omega)) hn ?_ nofun⟩
              · cases List.mem_singleton.1 hq
                exact ⟨g.array _, .inr (g.movable _)⟩
              · simp only [callS, refused_toS, toUnit, lostInstance, h3, Bool.true_and]
                rfl
            | _ => exact ⟨fun _ => rfl, .none s _⟩
          · split at ho <;> cases ho
        · cases ho
  · cases o with
    | none => cases h
    | some o =>
    rcases bind_throw' h with hb | ⟨_, _, h⟩
    · simp only [invokeMember, hp, ho]
      unfold object at ho
      split at ho
      · cases ho
      · rename_i h1
        simp only [if_neg h1]
        split at ho
        · rename_i h2
          simp only [if_pos h2]
          split at ho
          · cases ho
          · rename_i h3
            simp only [if_neg h3]
            obtain ⟨a, ha, ho⟩ := bind_ok' ho
            simp only [ha]
            refine ⟨fun throws' => by simp only [call, body_threw N g (throws' (.at a)) (throws (.at a)) e f.params as hb], ?_⟩
            exact leaves_call (params_fine N g f.params as) (fun k k1 k2 => hs k k1 (by omega)) hn
              (callS_threw hoom N g (throws (.at a)) e f.params as s.mem.nextBlock [] hb) nofun
        · rename_i h2
          simp only [if_neg h2]
          split at ho
          · rename_i h3
            simp only [if_pos h3]
            obtain ⟨m, hm, ho⟩ := bind_ok' ho
            split at ho
            · cases ho
            · rename_i h4
              have hm' : Val.to E v isConst (instancePtr b f.const) = .ok m := hm
              simp only [hm', if_neg h4]
              refine ⟨fun throws' => ?_, leaves_call (fun p hq => ?_) (fun k k1 k2 => hs k k1 (by simp at k2; omega)) hn ?_ nofun⟩
              · simp only [call, body, body_threw N g (fun vs => throws' (pointee E m) vs.tail) (fun vs => throws (pointee E m) vs.tail) e f.params as hb]
              · rcases List.mem_cons.1 hq with rfl | hq
                · exact ⟨g.array _, .inr (g.movable _)⟩
                · exact params_fine N g f.params as p hq
              · simp only [callS, toS_ok g hm', callS_threw hoom N g _ e f.params as _ _ hb, List.nil_append]
          · cases ho
    · cases h

/-- C81 for member functions: an instance that is neither a class nor a pointer to one: nothing happens. -/
theorem C81_member_nothing (P : Prog) (E : Env) (N : Nest) (V : Codes) (throws : Val.Obj → List Nat → Bool) (f : Fn) (b : Base) (isConst : Bool) (v : Vnt)
    (args : List Arg) (h : memberInvoke E N f b isConst v args = .ok .nothing) (x : Nat) (s : State) :
    invokeMember P E N V throws f b isConst v args x s = (.ok (), s) := by
  unfold memberInvoke at h
  obtain ⟨as, hp, h⟩ := bind_ok' h
  obtain ⟨o, ho, h⟩ := bind_ok' h
  cases o with
  | some o => obtain ⟨_, _, h⟩ := bind_ok' h; cases h
  | none =>
  simp only [invokeMember, hp]
  unfold object at ho
  split at ho
  · rename_i h1; rw [if_pos h1]
  · rename_i h1
    rw [if_neg h1]
    split at ho
    · split at ho
      · cases ho
      · obtain ⟨_, _, ho⟩ := bind_ok' ho; cases ho
    · rename_i h2
      rw [if_neg h2]
      split at ho
      · obtain ⟨m, _, ho⟩ := bind_ok' ho
        split at ho <;> cases ho
      · rename_i h3; rw [if_neg h3]

/-! a function `void(B const &, int, int const &)`, an `int` that converts to `B` and one whose conversion is declined -/
namespace ExL
open ExV ExI

def envC : Env := { ExV.env with
  conv := fun s t => if s = Ex.int ∧ t = cls B then some ⟨4, .functorOk, fun a => .returns (a == 710) false⟩ else none }
def codes : Codes := ⟨fun t => if Val.copyable t then 0 else 1, fun _ a => a, fun p => p, fun _ a => 7 * a⟩
def progC : Prog := ⟨fun t => ⟨.small, t == 0, true, false, false, false, some, fun v => some (v, 0)⟩, fun _ => false⟩
def fC : Fn := ⟨none, false, [⟨.lref, ccls B⟩, ⟨.none, Ex.int⟩, ⟨.lref, .base Ex.intB ⟨true, false⟩⟩], none⟩
def intAt (a : Addr) : Arg := makeArg 700 (.obj true Ex.int a)

theorem agreeC : Agree progC envC codes where
  array _ := nofun
  copyable t := by cases h : Val.copyable t <;> simp [progC, codes, h]
  copy t a _ := rfl
  movable _ := rfl
  move _ v := ⟨0, rfl⟩

example : staticInvoke envC nest fC [intAt 710, intAt 710, intAt 720] = .ok (.called none [.dummy (.converted 4 710), .value (.copyOf 710), .object 720]) ∧
    valuesOf codes fC.params [.dummy (.converted 4 710), .value (.copyOf 710), .object 720] = [4970, 710] ∧
    lostOf progC codes fC.params [.dummy (.converted 4 710), .value (.copyOf 710), .object 720] = [0] := by decide +kernel
example : staticInvoke envC nest fC [intAt 720, intAt 710, intAt 720] = .throw .badVariantConvert ∧
    lostUntil progC envC nest codes fC.params [intAt 720, intAt 710, intAt 720] = [0] := by decide +kernel
-- through memory: the function is reached with those values and leaves by an exception; one object is not destroyed
example : let r := (invoke progC envC nest codes (fun vs => vs == [4970, 710]) fC [intAt 710, intAt 710, intAt 720] 0 VMem.init)
    r.1 = .threw ∧ ctors (· == 0) r.2.mem.log = dtors (· == 0) r.2.mem.log + 1 := by decide +kernel

-- `void B::f(B const &)` called on a `D *` and on a `D`; a conversion that is declined
def mC : Fn := ⟨some B, false, [⟨.lref, ccls B⟩], none⟩
example : memberInvoke envC nest mC B false vPD [intAt 710] = .ok (.called (some (.at 5000)) [.dummy (.converted 4 710)]) ∧
    memberInvoke envC nest mC B false vD [intAt 710] = .ok (.called (some (.at 5000)) [.dummy (.converted 4 710)]) ∧
    memberInvoke envC nest mC B false vPD [intAt 720] = .throw .badVariantConvert := by decide +kernel
example : let r := invokeMember progC envC nest codes (fun o vs => o == .at 5000 && vs == [4970]) mC B false vPD [intAt 710] 0 VMem.init
    r.1 = .threw ∧ ctors (· == 0) r.2.mem.log = dtors (· == 0) r.2.mem.log + 1 := by decide +kernel
end ExL

end Rtti.Props
