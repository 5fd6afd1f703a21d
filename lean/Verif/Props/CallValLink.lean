import Verif.Lemmas.CallLink
import Verif.Props.CallVal
import Verif.Props.CallLink
/-! C81 for calls through the reflection interface that return a value, and for constructors. -/
set_option autoImplicit false
namespace Rtti.Props
open Rtti.CallMem Val VMem

/-- what is left when the call is made in `s`: the other variants, objects and blocks there were; a result with that value, or none if the call throws; and
    one object of each of these types more -/
def LeavesVal (P : Prog) (y t : Nat) (s : State) (r : Out Unit × State) (o : Option Nat) (lost : List Nat) : Prop :=
  (r.1 = match o with | some _ => .ok () | none => .threw) ∧ (∀ k, k ≠ some y → r.2.env k = s.env k) ∧
  (match o with | some v => Owns P r.2 y t v | none => r.2.env (some y) = none) ∧
  (∀ id, id < s.mem.nextObj → r.2.mem.objs id = s.mem.objs id) ∧
  (∀ b, b < s.mem.nextBlock → r.2.mem.blocks b = s.mem.blocks b) ∧
  (∀ u, ctors (· == u) r.2.mem.log + dtors (· == u) s.mem.log =
    ctors (· == u) s.mem.log + dtors (· == u) r.2.mem.log + lost.count u + if o.isSome ∧ u = t then 1 else 0) ∧
  allocs r.2.mem.log + frees s.mem.log = allocs s.mem.log + frees r.2.mem.log + if o.isSome ∧ (P.ty t).place ≠ .small then 1 else 0

private def outOf : Option Nat → Out Nat
  | some v => .ok v
  | none => .threw

private theorem leaves_callVal {P : Prog} {E : Env} {V : Codes} (g : Agree P E V) {y : Nat} {t : CType} {ret : List Nat → Option Nat} {ps : List Param}
    (hf : ∀ p ∈ ps, p.Fine P) {x : Nat} {s : State} (hs : ∀ k, x ≤ k → k < x + ps.length → s.env (some k) = none) (hn : s.env none = none)
    (hy : y < x ∨ x + ps.length ≤ y) (hy0 : s.env (some y) = none) {o : Option Nat} {lost : List Nat}
    (hc : callValS P (V.code t) ret s.mem.nextBlock [] ps = (outOf o, lost, 0)) : LeavesVal P y (V.code t) s (callVal P y (V.code t) ret x ps s) o lost := by
  have h := C81_result P y (V.code t) (g.array t) (.inr (g.movable t)) ret ps hf x s hs hn hy hy0
  simp only [hc] at h
  obtain ⟨h1, -, h2⟩ := h
  obtain ⟨a, b, c, d, e, q, k⟩ := h2 (by cases o <;> nofun)
  refine ⟨?_, a, ?_, d, e, fun u => ?_, ?_⟩
  · cases o <;> exact h1
  · cases o with
    | none => exact c rfl
    | some v => exact b v rfl
  · have := q (· == u)
    rw [this]
    cases o with
    | none => simp [outOf, inResult, List.count]
    | some v =>
      by_cases hu : u = V.code t
      · simp [outOf, inResult, List.count, hu]
      · have : (V.code t == u) = false := by simpa using fun e => hu e.symm
        simp [outOf, inResult, List.count, hu, this]
  · rw [k]
    cases o with
    | none => simp [outOf, inResult]
    | some v => by_cases hp : (P.ty (V.code t)).place = .small <;> simp [outOf, inResult, hp]

private theorem LeavesVal.none (P : Prog) (y t : Nat) (s : State) (hy0 : s.env (some y) = none) : LeavesVal P y t s (.threw, s) none [] :=
  ⟨rfl, fun _ _ => rfl, hy0, fun _ _ => rfl, fun _ _ => rfl, fun t => by simp, by simp⟩

private theorem resultS_ok {P : Prog} {E : Env} {V : Codes} (hoom : ∀ b, P.oom b = false) (g : Agree P E V) (t : CType) (n v : Nat) :
    resultS P (V.code t) n v = (.ok v, 0) := by
  simp [resultS, hoom, moveS_ok g]

private theorem callValS_linked {P : Prog} {E : Env} {V : Codes} (hoom : ∀ b, P.oom b = false) (N : Nest) (g : Agree P E V) (t : CType)
    (ret : List Nat → Option Nat) :
    ∀ (ps : List RType) (as : List Arg) (n : Nat) (vs : List Nat) (bs : List Bound), getAll E N ps as = .ok bs →
      callValS P (V.code t) ret n vs (paramsOf E N V ps as) = (outOf (ret (vs ++ valuesOf V ps bs)), lostOf P V ps bs, 0) := by
  intro ps
  induction ps with
  | nil =>
    intro as n vs bs h
    cases h
    simp only [paramsOf, callValS, valuesOf, lostOf, List.append_nil, resultS_ok hoom g]
    cases ret vs <;> rfl
  | cons p ps ih =>
    intro as n vs bs h
    cases as with
    | nil => cases h
    | cons a as =>
      obtain ⟨b, hb, h⟩ := bind_ok' h
      obtain ⟨bs', hbs, h⟩ := bind_ok' h
      cases h
      cases b with
      | object x =>
        simp only [paramsOf, paramOf, hb, callValS, ih as _ vs bs' hbs, valuesOf, lostOf]
      | value m =>
        obtain ⟨v, c, hm⟩ := get_made (.inr hb)
        simp only [paramsOf, paramOf, hb, callValS, toS_ok g hm, ih as _ _ bs' hbs, valuesOf, lostOf, List.append_assoc, List.singleton_append, List.nil_append]
      | dummy m =>
        obtain ⟨v, c, hm⟩ := get_made (.inl hb)
        simp only [paramsOf, paramOf, hb, callValS, toS_ok g hm, hoom, Bool.false_eq_true, and_false, if_false, moveS_ok g, ih as _ _ bs' hbs, valuesOf, lostOf, List.append_assoc, List.singleton_append, List.nil_append]
        split <;> rfl

private theorem callValS_threw {P : Prog} {E : Env} {V : Codes} (hoom : ∀ b, P.oom b = false) (N : Nest) (g : Agree P E V) (t : Nat)
    (ret : List Nat → Option Nat) (e : Exc) (ps : List RType) (as : List Arg) (n : Nat) (vs : List Nat) (h : getAll E N ps as = .throw e) :
    callValS P t ret n vs (paramsOf E N V ps as) = (.threw, lostUntil P E N V ps as, 0) := by
  have h1 := callValS_lost (P := P) (t := t) (f := ret) (paramsOf E N V ps as) n vs
  have h2 := callS_threw hoom N g (fun vs => (ret vs).isNone) e ps as n vs h
  simp only [h2] at h1
  obtain ⟨a, -, -, -, b⟩ := h1
  obtain ⟨b1, b2⟩ := b nofun
  revert a b1 b2
  rcases callValS P t ret n vs (paramsOf E N V ps as) with ⟨o, l, k⟩
  intro a b1 b2
  dsimp only at *
  subst a b2
  cases o <;> first | rfl | cases b1

private theorem bodyVal_threw {P : Prog} {E : Env} {V : Codes} (N : Nest) (g : Agree P E V) (y t : Nat) (ret ret' : List Nat → Option Nat) (e : Exc) :
    ∀ (ps : List RType) (as : List Arg), getAll E N ps as = .throw e → ∀ i acc,
      bodyVal P y t ret i acc (paramsOf E N V ps as) = bodyVal P y t ret' i acc (paramsOf E N V ps as) := by
  intro ps
  induction ps with
  | nil => intro as h; cases h
  | cons p ps ih =>
    intro as h i acc
    cases as with
    | nil => cases h
    | cons a as =>
      rcases bind_throw' h with h | ⟨b, hb, h⟩
      · obtain ⟨src, h1, h2⟩ := param_threw (P := P) (V := V) ps as h
        funext s
        have := to_spec (g.array p.t.decay) src s.mem
        rw [h2] at this
        obtain ⟨m, hm, _⟩ := this
        simp only [paramsOf, h1, bodyVal, bindM, hm]
      · rcases bind_throw' h with h' | ⟨bs, _, h'⟩
        · cases b <;> simp only [paramsOf, paramOf, hb, bodyVal, ih as h']
        · cases h'

/-- C81 for functions that return a value and for constructors, reached: the result owns what the function returns for the values its parameters are bound
    to, and the call loses what it loses without a result. -/
theorem C81_result_reached (P : Prog) (hoom : ∀ b, P.oom b = false) (E : Env) (N : Nest) (V : Codes) (g : Agree P E V) (y : Nat) (t : CType)
    (ret : List Nat → Option Nat) (f : Fn) (args : List Arg) (bs : List Bound) (h : staticInvoke E N f args = .ok (.called none bs)) (x : Nat) (s : State)
    (hs : ∀ k, x ≤ k → k < x + f.params.length → s.env (some k) = none) (hn : s.env none = none) (hy : y < x ∨ x + f.params.length ≤ y)
    (hy0 : s.env (some y) = none) :
    LeavesVal P y (V.code t) s (invokeVal P E N V y t ret f args x s) (ret (valuesOf V f.params bs)) (lostOf P V f.params bs) := by
  unfold staticInvoke at h
  obtain ⟨as, hp, h⟩ := bind_ok' h
  obtain ⟨bs', hb, h⟩ := bind_ok' h
  cases h
  have hl := params_le (E := E) (N := N) (V := V) f.params as
  simp only [invokeVal, hp]
  exact leaves_callVal g (params_fine N g f.params as) (fun k k1 k2 => hs k k1 (by omega)) hn (by omega) hy0
    (by simpa using callValS_linked hoom N g t ret f.params as s.mem.nextBlock [] bs hb)

/-- C81 for functions that return a value and for constructors, refused: an exception, no result, and the same whatever the function would return. -/
theorem C81_result_refused (P : Prog) (hoom : ∀ b, P.oom b = false) (E : Env) (N : Nest) (V : Codes) (g : Agree P E V) (y : Nat) (t : CType)
    (ret : List Nat → Option Nat) (f : Fn) (args : List Arg) (e : Exc) (h : staticInvoke E N f args = .throw e) (x : Nat) (s : State)
    (hs : ∀ k, x ≤ k → k < x + f.params.length → s.env (some k) = none) (hn : s.env none = none) (hy : y < x ∨ x + f.params.length ≤ y)
    (hy0 : s.env (some y) = none) :
    (∀ ret', invokeVal P E N V y t ret' f args x s = invokeVal P E N V y t ret f args x s) ∧
    LeavesVal P y (V.code t) s (invokeVal P E N V y t ret f args x s) none
      (match pack f.params.length args with | .ok as => lostUntil P E N V f.params as | _ => []) := by
  unfold staticInvoke at h
  rcases bind_throw' h with hp | ⟨as, hp, h⟩
  · simp only [invokeVal, hp]
    exact ⟨fun _ => trivial, .none P y _ s hy0⟩
  rcases bind_throw' h with hb | ⟨bs, _, h⟩
  · have hl := params_le (E := E) (N := N) (V := V) f.params as
    simp only [invokeVal, hp]
    exact ⟨fun ret' => by simp only [callVal, bodyVal_threw N g y (V.code t) ret' ret e f.params as hb],
      leaves_callVal g (params_fine N g f.params as) (fun k k1 k2 => hs k k1 (by omega)) hn (by omega) hy0
        (callValS_threw hoom N g (V.code t) ret e f.params as s.mem.nextBlock [] hb)⟩
  · cases h

/-- C81 for member functions that return a value, reached: the result owns what the function returns on that object for the values its parameters are
    bound to; what is lost is as for static functions, the pointer made of the instance is gone. -/
theorem C81_member_result_reached (P : Prog) (hoom : ∀ b, P.oom b = false) (E : Env) (N : Nest) (V : Codes) (g : Agree P E V)
    (y : Nat) (t : CType) (ret : Val.Obj → List Nat → Option Nat) (f : Fn) (b : Base) (isConst : Bool) (v : Vnt) (args : List Arg) (o : Val.Obj) (bs : List Bound)
    (h : memberInvoke E N f b isConst v args = .ok (.called (some o) bs)) (x : Nat) (s : State)
    (hs : ∀ k, x ≤ k → k ≤ x + f.params.length → s.env (some k) = none) (hn : s.env none = none) (hy : y < x ∨ x + f.params.length < y)
    (hy0 : s.env (some y) = none) :
    LeavesVal P y (V.code t) s (invokeMemberVal P E N V y t ret f b isConst v args x s) (ret o (valuesOf V f.params bs))
      (lostOf P V f.params bs) := by
  unfold memberInvoke at h
  obtain ⟨as, hp, h⟩ := bind_ok' h
  obtain ⟨o', ho, h⟩ := bind_ok' h
  cases o' with
  | none => cases h
  | some o' =>
  obtain ⟨bs', hb, h⟩ := bind_ok' h
  cases h
  have hl := params_le (E := E) (N := N) (V := V) f.params as
  simp only [invokeMemberVal, hp]
  unfold object at ho
  split at ho
  · cases ho
  · rename_i h1
    rw [if_neg h1]
    split at ho
    · rename_i h2
      rw [if_pos h2]
      split at ho
      · cases ho
      · rename_i h3
        rw [if_neg h3]
        obtain ⟨a, ha, ho⟩ := bind_ok' ho
        cases ho
        simp only [ha]
        exact leaves_callVal g (params_fine N g f.params as) (fun k k1 k2 => hs k k1 (by omega)) hn (by omega) hy0
          (by simpa using callValS_linked hoom N g t (ret (.at a)) f.params as s.mem.nextBlock [] bs hb)
    · rename_i h2
      rw [if_neg h2]
      split at ho
      · rename_i h3
        rw [if_pos h3]
        obtain ⟨m, hm, ho⟩ := bind_ok' ho
        split at ho
        · cases ho
        · rename_i h4
          cases ho
          have hm' : Val.to E v isConst (instancePtr b f.const) = .ok m := hm
          simp only [hm', if_neg h4]
          refine leaves_callVal g (fun p hq => ?_) (fun k k1 k2 => hs k k1 (by simp at k2; omega)) hn (by simp; omega) hy0 ?_
          · rcases List.mem_cons.1 hq with rfl | hq
            · exact ⟨g.array _, .inr (g.movable _)⟩
            · exact params_fine N g f.params as p hq
          · simp only [callValS, toS_ok g hm', callValS_linked hoom N g t _ f.params as _ _ bs hb, List.nil_append, List.singleton_append, List.tail_cons]
      · cases ho

/-- C81 for member functions that return a value, refused: an exception, no result, whatever the function does; lost are the objects of `C81_refused`, or a pointer made from the
    instance by a converter that declined. -/
theorem C81_member_result_refused (P : Prog) (hoom : ∀ b, P.oom b = false) (E : Env) (N : Nest) (V : Codes) (g : Agree P E V)
    (y : Nat) (t : CType) (ret : Val.Obj → List Nat → Option Nat) (f : Fn) (b : Base) (isConst : Bool) (v : Vnt) (args : List Arg) (e : Exc)
    (h : memberInvoke E N f b isConst v args = .throw e) (x : Nat) (s : State)
    (hs : ∀ k, x ≤ k → k ≤ x + f.params.length → s.env (some k) = none) (hn : s.env none = none) (hy : y < x ∨ x + f.params.length < y)
    (hy0 : s.env (some y) = none) :
    (∀ ret', invokeMemberVal P E N V y t ret' f b isConst v args x s = invokeMemberVal P E N V y t ret f b isConst v args x s) ∧
    LeavesVal P y (V.code t) s (invokeMemberVal P E N V y t ret f b isConst v args x s) none
      (match pack f.params.length args, object E b f.const isConst v with
        | .ok as, .ok _ => lostUntil P E N V f.params as
        | .ok _, .throw .badVariantConvert => lostInstance E V b f.const isConst v
        | _, _ => []) := by
  unfold memberInvoke at h
  rcases bind_throw' h with hp | ⟨as, hp, h⟩
  · simp only [invokeMemberVal, hp]
    exact ⟨fun _ => trivial, .none P y _ s hy0⟩
  have hl := params_le (E := E) (N := N) (V := V) f.params as
  rcases bind_throw' h with ho | ⟨o, ho, h⟩
  · simp only [invokeMemberVal, hp, ho]
    unfold object at ho
    split at ho
    · cases ho
    · rename_i h1
      simp only [if_neg h1]
      split at ho
      · rename_i h2
        simp only [if_pos h2]
        split at ho
        · rename_i h3
          simp only [if_pos h3]
          cases ho
          exact ⟨fun _ => trivial, .none P y _ s hy0⟩
        · rename_i h3
          simp only [if_neg h3]
          rcases bind_throw' ho with ha | ⟨a, _, ho⟩
          · simp only [ha]
            cases (C77_casts E v _ _ ⟨.none, .base b ⟨false, false⟩⟩ false e).1 ha
            exact ⟨fun _ => trivial, .none P y _ s hy0⟩
          · cases ho
      · rename_i h2
        simp only [if_neg h2]
        split at ho
        · rename_i h3
          simp only [if_pos h3]
          rcases bind_throw' ho with hm | ⟨m, _, ho⟩
          · have hm' : Val.to E v isConst (instancePtr b f.const) = .throw e := hm
            simp only [hm']
            cases e with
            | badVariantConvert =>
              refine ⟨fun _ => rfl, leaves_callVal g (fun p hq => ?_) (fun k k1 k2 => hs k k1 (by simp at k2; omega)) hn (by simp; omega) hy0 ?_⟩
              · cases List.mem_singleton.1 hq
                exact ⟨g.array _, .inr (g.movable _)⟩
              · simp only [callValS, refused_toS, toUnit, lostInstance, h3, Bool.true_and]
                rfl
            | _ => exact ⟨fun _ => rfl, .none P y _ s hy0⟩
          · split at ho <;> cases ho
        · cases ho
  · cases o with
    | none => cases h
    | some o =>
    rcases bind_throw' h with hb | ⟨_, _, h⟩
    · simp only [invokeMemberVal, hp, ho]
      unfold object at ho
      split at ho
      · cases ho
      · rename_i h1
        simp only [if_neg h1]
        split at ho
        · rename_i h2
          simp only [if_pos h2]
          split at ho
          · cases ho
          · rename_i h3
            simp only [if_neg h3]
            obtain ⟨a, ha, ho⟩ := bind_ok' ho
            simp only [ha]
            refine ⟨fun ret' => by simp only [callVal, bodyVal_threw N g y (V.code t) (ret' (.at a)) (ret (.at a)) e f.params as hb], ?_⟩
            exact leaves_callVal g (params_fine N g f.params as) (fun k k1 k2 => hs k k1 (by omega)) hn (by omega) hy0
              (callValS_threw hoom N g (V.code t) (ret (.at a)) e f.params as s.mem.nextBlock [] hb)
        · rename_i h2
          simp only [if_neg h2]
          split at ho
          · rename_i h3
            simp only [if_pos h3]
            obtain ⟨m, hm, ho⟩ := bind_ok' ho
            split at ho
            · cases ho
            · rename_i h4
              have hm' : Val.to E v isConst (instancePtr b f.const) = .ok m := hm
              simp only [hm', if_neg h4]
              refine ⟨fun ret' => ?_, leaves_callVal g (fun p hq => ?_) (fun k k1 k2 => hs k k1 (by simp at k2; omega)) hn (by simp; omega) hy0 ?_⟩
              · simp only [callVal, bodyVal, bodyVal_threw N g y (V.code t) (fun vs => ret' (pointee E m) vs.tail) (fun vs => ret (pointee E m) vs.tail) e f.params as hb]
              · rcases List.mem_cons.1 hq with rfl | hq
                · exact ⟨g.array _, .inr (g.movable _)⟩
                · exact params_fine N g f.params as p hq
              · simp only [callValS, toS_ok g hm', callValS_threw hoom N g (V.code t) _ e f.params as _ _ hb, List.nil_append]
                rfl
          · cases ho
    · cases h

/-- C81 for member functions that return a value: an instance that is neither a class nor a pointer to one: the result is empty, nothing else happens. -/
theorem C81_member_result_nothing (P : Prog) (E : Env) (N : Nest) (V : Codes) (y : Nat) (t : CType) (ret : Val.Obj → List Nat → Option Nat) (f : Fn) (b : Base) (isConst : Bool) (v : Vnt)
    (args : List Arg) (h : memberInvoke E N f b isConst v args = .ok .nothing) (x : Nat) (s : State) :
    invokeMemberVal P E N V y t ret f b isConst v args x s = (.ok (), put (some y) (some fresh) s) := by
  unfold memberInvoke at h
  obtain ⟨as, hp, h⟩ := bind_ok' h
  obtain ⟨o, ho, h⟩ := bind_ok' h
  cases o with
  | some o => obtain ⟨_, _, h⟩ := bind_ok' h; cases h
  | none =>
  simp only [invokeMemberVal, hp]
  unfold object at ho
  split at ho
  · rename_i h1; rw [if_pos h1]; rfl
  · rename_i h1
    rw [if_neg h1]
    split at ho
    · split at ho
      · cases ho
      · obtain ⟨_, _, ho⟩ := bind_ok' ho; cases ho
    · rename_i h2
      rw [if_neg h2]
      split at ho
      · obtain ⟨m, _, ho⟩ := bind_ok' ho
        split at ho <;> cases ho
      · rename_i h3; rw [if_neg h3]; rfl

section
open ExV ExI ExL

-- `int f(B const &, int, int const &)` returns what it reads first, as another type; the object lost is that of the first parameter
example : let r := invokeVal progC envC nest codes 9 (cls D) (fun vs => vs.head?) fC [intAt 710, intAt 710, intAt 720] 0 VMem.init
    r.1 = .ok () ∧ (∃ id, r.2.env (some 9) = some ⟨.own 0, .obj id⟩ ∧ r.2.mem.objs id = some ⟨0, 4970⟩) ∧
    ctors (· == 0) r.2.mem.log = dtors (· == 0) r.2.mem.log + 2 := by
  have h := C81_result_reached progC (fun _ => rfl) envC nest codes agreeC 9 (cls D) (fun vs => vs.head?) fC
    [intAt 710, intAt 710, intAt 720] [.dummy (.converted 4 710), .value (.copyOf 710), .object 720] (by decide +kernel) 0 VMem.init
    (fun _ _ _ => rfl) rfl (.inr (by decide)) rfl
  have e : valuesOf codes fC.params [.dummy (.converted 4 710), .value (.copyOf 710), .object 720] = [4970, 710] := by decide +kernel
  have e' : lostOf progC codes fC.params [.dummy (.converted 4 710), .value (.copyOf 710), .object 720] = [0] := by decide +kernel
  have e2 : codes.code (cls D) = 0 := by decide +kernel
  rw [e, e', e2] at h
  obtain ⟨h1, -, h3, -, -, h6, -⟩ := h
  generalize invokeVal progC envC nest codes 9 (cls D) (fun vs => vs.head?) fC [intAt 710, intAt 710, intAt 720] 0 VMem.init = r at *
  refine ⟨h1, ?_, ?_⟩
  · simp only [List.head?_cons, Owns] at h3
    rw [if_pos (by decide +kernel)] at h3
    exact h3
  · have := h6 0
    simp [VMem.init, ctors, dtors] at this
    omega
example : staticInvoke envC nest fC [intAt 720, intAt 710, intAt 720] = .throw .badVariantConvert := by decide +kernel
example : let r := invokeMemberVal progC envC nest codes 9 Ex.int (fun o vs => if o == .at 5000 then vs.head? else none) mC B false vPD [intAt 710] 0 VMem.init
    r.1 = .ok () ∧ ctors (· == 0) r.2.mem.log = dtors (· == 0) r.2.mem.log + 2 := by decide +kernel
example : memberInvoke envC nest mC B false vI [intAt 710] = .ok .nothing := by decide +kernel
end

end Rtti.Props
