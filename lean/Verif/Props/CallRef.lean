import Verif.Lemmas.CallRef
import Verif.Props.CallMem
/-! C82: references that called functions return. -/
set_option autoImplicit false
namespace Rtti.Props
open VMem CallMem

/-- A function that returns a reference is called like any other: the call ends like one that returns nothing, with the same objects made and
    destroyed. -/
theorem C82_same_call (P : Prog) (f : List Nat → Option Nat) (x : Nat) (ps : List Param) (s : State) :
    (callRef P f x ps s).2 = (call P (fun vs => (f vs).isNone) x ps s).2 ∧
    ((callRef P f x ps s).1 = .threw ↔ (call P (fun vs => (f vs).isNone) x ps s).1 = .threw) ∧
    ((callRef P f x ps s).1 = .terminated ↔ (call P (fun vs => (f vs).isNone) x ps s).1 = .terminated) ∧
    ((callRef P f x ps s).1 = .ub ↔ (call P (fun vs => (f vs).isNone) x ps s).1 = .ub) := by
  rw [callRef_unit]
  rcases callRef P f x ps s with ⟨o, s'⟩
  cases o <;> simp [unit]

/-- A reference to a parameter with an object of its own (converted, or passed by value), dangles: when the call has returned, the object is gone. It
    is none of the objects there were before. -/
theorem C82_own_object_false (P : Prog) (f : List Nat → Option Nat) (ps : List Param) (hf : ∀ p ∈ ps, p.Fine P) (x : Nat)
    (s s' : State) (hn : s.env none = none) (id : Nat)
    (h : callRef P f x ps s = (.ok (some id), s')) : s'.mem.objs id = none ∧ s.mem.nextObj ≤ id := by
  obtain ⟨h1, h2, h3⟩ := newAll_env ps.length x s
  have hn' : (newAll x ps.length s).env none = none := by rw [h2 none nofun]; exact hn
  obtain ⟨s1, hb, hd⟩ := finally_ok h
  obtain ⟨s2, e2, hA⟩ := body_spec (fun vs => (f vs).isNone) ps hf _ x [] [] (newAll x ps.length s) rfl trivial h1 hn'
  rw [bodyRef_unit, hb] at e2
  obtain ⟨e3, rfl⟩ := Prod.mk.inj e2
  obtain ⟨c, -, hF, -⟩ := hA (by rw [← e3]; nofun)
  rcases bodyRef_where f ps hf x [] [] _ s1 id trivial h1 hn' hb with h | ⟨hlo, hw⟩
  · cases h
  · exact ⟨destroyAll_kills hF hd hw, by rw [h3] at hlo; exact hlo⟩

/-- A reference to an object there was before the call (one a parameter is bound to directly, or any other) is as good as before: the call does
    not touch it. -/
theorem C82_direct_partial (P : Prog) (f : List Nat → Option Nat) (ps : List Param) (hf : ∀ p ∈ ps, p.Fine P) (x : Nat)
    (s s' : State) (hs : ∀ k, x ≤ k → k < x + ps.length → s.env (some k) = none) (hn : s.env none = none) (o : Option Nat)
    (h : callRef P f x ps s = (.ok o, s')) (id : Nat) (hid : id < s.mem.nextObj) : s'.mem.objs id = s.mem.objs id := by
  have e := callRef_unit P f x ps s
  rw [h] at e
  have ho := (C81_outcome P (fun vs => (f vs).isNone) ps hf x s hs hn).1
  rw [e] at ho
  have hx := (C81_exact P (fun vs => (f vs).isNone) ps hf x s hs hn (by rw [← ho]; nofun)).2.1 id hid
  rw [e] at hx
  exact hx

/-- Which references are to parameters with objects of their own: the function gets the values of exactly the parameters that are not bound directly,
    and names one of them. -/
theorem C82_which (P : Prog) (f : List Nat → Option Nat) (ps : List Param) (x : Nat) (s s' : State) (o : Option Nat)
    (h : callRef P f x ps s = (.ok o, s')) :
    ∃ vs k, f vs = some k ∧ vs.length = ps.countP (fun p => p != .direct) ∧ (o ≠ none ↔ k < vs.length) := by
  obtain ⟨s1, hb, -⟩ := finally_ok h
  obtain ⟨vs, k, h1, h2, h3⟩ := bodyRef_which hb
  refine ⟨vs, k, h1, ?_, ?_⟩
  · have : ∀ ps : List Param, owners ps = ps.countP (fun p => p != .direct) := by
      intro ps
      induction ps with
      | nil => rfl
      | cons p ps ih => cases p <;> simp [owners, ih]
    rw [h2, this]; simp
  · rw [ne_eq, h3]; omega

/-- The reference is to the parameter the function returns, not to another one: in one and the same call, references to different parameters with
    objects of their own are to different objects, made in the order of the parameters. -/
theorem C82_order (P : Prog) (f g : List Nat → Option Nat) (hfg : ∀ vs j k, f vs = some j → g vs = some k → j < k)
    (ps : List Param) (hf : ∀ p ∈ ps, p.Fine P) (x : Nat) (s s1 s2 : State)
    (hn : s.env none = none) (a b : Nat) (h1 : callRef P f x ps s = (.ok (some a), s1)) (h2 : callRef P g x ps s = (.ok (some b), s2)) : a < b := by
  obtain ⟨e1, e2, -⟩ := newAll_env ps.length x s
  obtain ⟨_, hb1, -⟩ := finally_ok h1
  obtain ⟨_, hb2, -⟩ := finally_ok h2
  exact bodyRef_order f g hfg ps hf x [] [] _ _ _ a b trivial .nil e1 (by rw [e2 none nofun]; exact hn) hb1 hb2

/-- a converted argument by const reference: the function returns its parameter -/
example : (callRef callTys (fun _ => some 0) 0 [.dummy 1 (.made 7 true)] VMem.init).1 = .ok (some 2) ∧
    (callRef callTys (fun _ => some 0) 0 [.dummy 1 (.made 7 true)] VMem.init).2.mem.objs 2 = none := by decide +kernel
/-- the second of three, and one bound directly -/
example : (callRef callTys (fun vs => if vs = [7, 8] then some 1 else none) 0 [.value 0 (.copy 7), .direct, .dummy 1 (.copy 8)] VMem.init).1 = .ok (some 4) ∧
    (callRef callTys (fun vs => if vs = [7, 8] then some 1 else none) 0 [.value 0 (.copy 7), .direct, .dummy 1 (.copy 8)] VMem.init).2.mem.objs 4 = none := by
  decide +kernel
example : (callRef callTys (fun _ => some 0) 0 [.value 0 (.copy 7), .direct, .dummy 1 (.copy 8)] VMem.init).1 = .ok (some 1) := by decide +kernel
example : (callRef callTys (fun _ => some 0) 0 [.direct] VMem.init).1 = .ok none := by decide +kernel
example : (callRef callTys (fun _ => none) 0 [.dummy 1 (.made 7 true)] VMem.init).1 = .threw := by decide +kernel
example : ∀ p ∈ [Param.value 0 (.copy 7), .direct, .dummy 1 (.copy 8)], p.Fine callTys := by simp [Param.Fine, callTys]

end Rtti.Props
