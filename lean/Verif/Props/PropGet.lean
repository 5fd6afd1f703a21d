import Verif.Props.PropMem
import Verif.Props.CallValLink
/-! C90: the temporary objects of reading a property. -/
set_option autoImplicit false
namespace Rtti.Props
open Rtti.CallMem Val VMem

private theorem obj_class {E : Env} {b : Base} {v : Vnt} (h1 : v.held ≠ none) (h2 : (describe (v.type .none)).isClass = true) :
    object E b true true v = (reference E v .refConst (.base b ⟨true, false⟩)).bind fun a => .ok (some (.at a)) := by
  simp [object, h1, h2]

private theorem obj_ptr {E : Env} {b : Base} {v : Vnt} (h1 : v.held ≠ none) (h2 : (describe (v.type .none)).isClass ≠ true)
    (h3 : (describe (v.type .none)).isClassPtr = true) :
    object E b true true v = (Val.to E v true (instancePtr b true)).bind fun m => if pointee E m = .at 0 then .ub else .ok (some (pointee E m)) := by
  simp [object, h1, h2, h3, instancePtr]

/-- A read of an object: the result is a reference to exactly the object `get` finds (C49), nothing is copied, and otherwise all is as before: the pointer
    made of the instance is gone. -/
theorem C90_reference (P : Prog) (E : Env) (N : Nest) (V : Codes) (g : Agree P E V) (y : Nat) (loc : Spot → Nat) (ret : Val.Obj → Option Nat)
    (p : Property) (i : Option Vnt) (t : CType) (o : Spot) (h : p.get E N i = .ok (.ref t o)) (x : Nat) (s : State)
    (hs : s.env (some x) = none) (hn : s.env none = none) :
    ∃ s', getProp P E N V y loc ret p i x s = (.ok (), put (some y) (some ⟨.ref (V.code t), .ext (loc o)⟩) s') ∧ Leaves s (.ok (), s') (.ok ()) [] := by
  unfold Property.get at h
  unfold getProp
  cases i with
  | none =>
    cases p with
    | static u z => cases h; exact ⟨s, rfl, .none s _⟩
    | _ => cases h
  | some v =>
    cases p with
    | static u z => cases h
    | accessor b gt st => simp only at h; obtain ⟨_, _, h⟩ := bind_ok' h; cases h
    | field b u off =>
      simp only at h ⊢
      by_cases h1 : v.held = none
      · rw [show object E b true true v = .ok none by simp [object, h1]] at h; cases h
      rw [if_neg h1]
      by_cases h2 : (describe (v.type .none)).isClass = true
      · rw [if_pos h2]
        rw [obj_class h1 h2] at h
        obtain ⟨o', ho, h⟩ := bind_ok' h
        obtain ⟨r, hr, ho⟩ := bind_ok' ho
        cases ho
        cases h
        simp only [hr]
        exact ⟨s, rfl, .none s _⟩
      rw [if_neg h2]
      by_cases h3 : (describe (v.type .none)).isClassPtr = true
      · rw [if_pos h3]
        rw [obj_ptr h1 h2 h3] at h
        obtain ⟨o', ho, h⟩ := bind_ok' h
        obtain ⟨r, hr, ho⟩ := bind_ok' ho
        split at ho
        · cases ho
        rename_i h4
        cases ho
        cases h
        simp only [hr, if_neg h4]
        have hl : Leaves s (call P (fun _ => false) x [.value (V.code (instancePtr b true)) (V.src (instancePtr b true) r)] s) (.ok ()) [] :=
          leaves_call (fun q hq => by cases List.mem_singleton.1 hq; exact ⟨g.array _, .inr (g.movable _)⟩)
            (fun k k1 k2 => by
              have : k = x := by simp at k2; omega
              rw [this]; exact hs) hn (by simp only [callS, toS_ok g hr]; rfl) nofun
        rcases hc : call P (fun _ => false) x [.value (V.code (instancePtr b true)) (V.src (instancePtr b true) r)] s with ⟨q, s'⟩
        rw [hc] at hl
        have hq : q = .ok () := hl.1
        subst hq
        exact ⟨s', by simp only [seq, hc]; rfl, hl⟩
      · rw [show object E b true true v = .ok none by simp [object, h1, h2, h3]] at h; cases h

/-- A read that finds nothing gives an empty variant and changes nothing else. -/
theorem C90_nothing (P : Prog) (E : Env) (N : Nest) (V : Codes) (y : Nat) (loc : Spot → Nat) (ret : Val.Obj → Option Nat)
    (p : Property) (i : Option Vnt) (h : p.get E N i = .ok .empty ∨ (p.get E N i = .ok (.result .nothing) ∧ ∀ b gt st, p = .accessor b gt st → gt.result ≠ none))
    (x : Nat) (s : State) : getProp P E N V y loc ret p i x s = (.ok (), put (some y) (some fresh) s) := by
  unfold Property.get at h
  unfold getProp
  cases i with
  | none => cases p <;> rcases h with h | ⟨h, _⟩ <;> cases h
  | some v =>
    cases p with
    | static u z => rcases h with h | ⟨h, _⟩ <;> cases h
    | accessor b gt st =>
      simp only at h ⊢
      rcases h with h | ⟨h, hr⟩
      · obtain ⟨_, _, h⟩ := bind_ok' h; cases h
      · obtain ⟨d, hd, h⟩ := bind_ok' h
        cases h
        cases e : gt.result with
        | none => exact absurd e (hr b gt st rfl)
        | some r => exact C81_member_result_nothing P E N V y r.t _ gt b true v [] hd x s
    | field b u off =>
      simp only at h ⊢
      have ho : object E b true true v = .ok none := by
        rcases h with h | ⟨h, _⟩ <;> obtain ⟨o, ho, h⟩ := bind_ok' h <;> cases o <;> cases h
        exact ho
      by_cases h1 : v.held = none
      · rw [if_pos h1]; rfl
      rw [if_neg h1]
      by_cases h2 : (describe (v.type .none)).isClass = true
      · rw [obj_class h1 h2] at ho
        obtain ⟨r, hr, ho⟩ := bind_ok' ho
        cases ho
      rw [if_neg h2]
      by_cases h3 : (describe (v.type .none)).isClassPtr = true
      · rw [obj_ptr h1 h2 h3] at ho
        obtain ⟨r, hr, ho⟩ := bind_ok' ho
        split at ho <;> cases ho
      · rw [if_neg h3]; rfl

/-- A getter that returns a value: the result owns it, and nothing else remains. -/
theorem C90_getter (P : Prog) (hoom : ∀ b, P.oom b = false) (E : Env) (N : Nest) (V : Codes) (g : Agree P E V) (y : Nat) (loc : Spot → Nat)
    (ret : Val.Obj → Option Nat) (b : Base) (get set : Fn) (hg : get.params = []) (t : CType) (ht : get.result = some ⟨.none, t⟩) (i : Option Vnt)
    (o : Val.Obj) (bs : List Bound) (h : (Property.accessor b get set).get E N i = .ok (.result (.called (some o) bs))) (x : Nat) (s : State)
    (hs : s.env (some x) = none) (hn : s.env none = none) (hy : y ≠ x) (hy0 : s.env (some y) = none) :
    LeavesVal P y (V.code t) s (getProp P E N V y loc ret (.accessor b get set) i x s) (ret o) [] := by
  cases i with
  | none => cases h
  | some v =>
    simp only [Property.get] at h
    obtain ⟨d, hd, h⟩ := bind_ok' h
    cases h
    simp only [getProp, ht]
    have := C81_member_result_reached P hoom E N V g y t (fun o _ => ret o) get b true v [] o bs hd x s
      (fun k k1 k2 => by
        have : k = x := by rw [hg] at k2; simp at k2; omega
        rw [this]; exact hs) hn (by rw [hg]; simp; omega) hy0
    rwa [hg, show lostOf P V [] bs = [] from rfl] at this

/-- A read that is refused throws, gives no result, runs no getter, and loses exactly the pointer to the instance a converter made that declined. -/
theorem C90_refused (P : Prog) (hoom : ∀ b, P.oom b = false) (E : Env) (N : Nest) (V : Codes) (g : Agree P E V) (y : Nat) (loc : Spot → Nat)
    (ret : Val.Obj → Option Nat) (p : Property) (hp : ∀ b gt st, p = .accessor b gt st → gt.params = [] ∧ gt.result ≠ none) (i : Option Vnt) (e : Exc)
    (h : p.get E N i = .throw e) (x : Nat) (s : State) (hs : s.env (some x) = none) (hn : s.env none = none) (hy : y ≠ x) (hy0 : s.env (some y) = none) :
    (∀ loc' ret', getProp P E N V y loc' ret' p i x s = getProp P E N V y loc ret p i x s) ∧
    Leaves s (getProp P E N V y loc ret p i x s) .threw (lostRead E V p i) := by
  have room : ∀ k, x ≤ k → k < x + 1 → s.env (some k) = none := fun k k1 k2 => by
    have : k = x := by omega
    rw [this]; exact hs
  unfold Property.get at h
  unfold getProp lostRead
  cases i with
  | none =>
    cases p with
    | static u z => cases h
    | _ => exact ⟨fun _ _ => rfl, .none s _⟩
  | some v =>
    cases p with
    | static u z => exact ⟨fun _ _ => rfl, .none s _⟩
    | accessor b gt st =>
      simp only at h ⊢
      obtain ⟨hg, hr⟩ := hp b gt st rfl
      rcases bind_throw' h with h | ⟨d, _, h⟩
      · have ho : object E b gt.const true v = .throw e := by
          unfold memberInvoke at h
          rcases bind_throw' h with h | ⟨as, _, h⟩
          · rw [hg] at h; cases h
          rcases bind_throw' h with h | ⟨o, _, h⟩
          · exact h
          · cases o with
            | none => cases h
            | some o =>
              rw [hg] at h
              rcases bind_throw' h with h | ⟨bs, _, h⟩ <;> cases h
        cases er : gt.result with
        | none => exact absurd er hr
        | some r =>
          have := C81_member_result_refused P hoom E N V g y r.t (fun o _ => ret o) gt b true v [] e h x s
            (fun k k1 k2 => room k k1 (by rw [hg] at k2; simp at k2; omega)) hn (by rw [hg]; simp; omega) hy0
          refine ⟨fun _ ret' => this.1 (fun o _ => ret' o), ?_⟩
          obtain ⟨a1, a2, a3, a4, a5, a6, a7⟩ := this.2
          refine ⟨a1, funext fun k => ?_, a4, a5, fun u => ?_, by simpa using a7⟩
          · by_cases hk : k = some y
            · rw [hk, hy0]; exact a3
            · exact a2 k hk
          · have := a6 u
            rw [ho, hg] at this
            simp only [ho]
            simp only [Option.isSome_none, Bool.false_eq_true, false_and, if_false, Nat.add_zero] at this
            rw [this]
            have pk : pack ([] : List RType).length [] = .ok (pad []) := rfl
            rw [pk]
            cases e <;> simp [lostUntil]
      · cases h
    | field b u off =>
      simp only at h ⊢
      have ho : object E b true true v = .throw e := by
        rcases bind_throw' h with h | ⟨o, _, h⟩
        · exact h
        · cases o <;> cases h
      by_cases h1 : v.held = none
      · rw [show object E b true true v = .ok none by simp [object, h1]] at ho; cases ho
      simp only [if_neg h1]
      by_cases h2 : (describe (v.type .none)).isClass = true
      · simp only [if_pos h2]
        have ho' := ho
        rw [obj_class h1 h2] at ho'
        rcases bind_throw' ho' with hr | ⟨_, _, ho'⟩
        · cases (C77_casts E v _ _ ⟨.none, .base b ⟨false, false⟩⟩ false e).1 hr
          rw [ho, if_neg (by nofun)]
          simp only [hr]
          exact ⟨fun _ _ => trivial, .none s _⟩
        · cases ho'
      simp only [if_neg h2]
      by_cases h3 : (describe (v.type .none)).isClassPtr = true
      · simp only [if_pos h3]
        have ho' := ho
        rw [obj_ptr h1 h2 h3] at ho'
        rcases bind_throw' ho' with hr | ⟨_, _, ho'⟩
        · rw [ho]
          simp only [hr]
          cases e with
          | badVariantConvert =>
            refine ⟨fun _ _ => rfl, leaves_call (fun q hq => ?_) room hn ?_ nofun⟩
            · cases List.mem_singleton.1 hq; exact ⟨g.array _, .inr (g.movable _)⟩
            · simp only [callS, refused_toS, toUnit, lostInstance, h3, Bool.true_and, if_true]
              rfl
          | _ => exact ⟨fun _ _ => rfl, .none s _⟩
        · split at ho' <;> cases ho'
      · rw [show object E b true true v = .ok none by simp [object, h1, h2, h3]] at ho; cases ho

namespace ExL
open ExV ExI

example : stat.get envC nest none = .ok (.ref (ccls B) ⟨.at 3000, 0⟩) ∧ memb.get envC nest (some vPD) = .ok (.ref (ccls B) ⟨.at 5000, 8⟩) ∧
    memb.get envC nest (some vD) = .ok (.ref (ccls B) ⟨.at 5000, 8⟩) ∧ accs.get envC nest (some vPD) = .ok (.result (.called (some (.at 5000)) [])) ∧
    memb.get envC nest none = .throw .invokeError ∧ memb.get envC nest (some ⟨none, 0, 0⟩) = .ok .empty := by decide +kernel
-- the pointer is made and destroyed; the getter's value is in the result
example : let r := getProp progC envC nest codes 9 (fun o => o.off) (fun _ => none) memb (some vPD) 0 VMem.init
    r.1 = .ok () ∧ r.2.env (some 9) = some ⟨.ref 0, .ext 8⟩ ∧ ctors (fun _ => true) r.2.mem.log = 2 ∧ dtors (fun _ => true) r.2.mem.log = 2 := by decide +kernel
example : let r := getProp progC envC nest codes 9 (fun o => o.off) (fun o => if o = .at 5000 then some 77 else none) accs (some vPD) 0 VMem.init
    r.1 = .ok () ∧ ctors (fun _ => true) r.2.mem.log = dtors (fun _ => true) r.2.mem.log + 1 := by decide +kernel

/-- every converter makes an object and declines -/
def envP : Env := { ExV.env with conv := fun _ _ => some ⟨4, .functorOk, fun _ => .returns false false⟩ }
theorem agreeP : Agree progC envP codes where
  array _ := nofun
  copyable t := by cases h : Val.copyable t <;> simp [progC, codes, h]
  copy t a _ := rfl
  movable _ := rfl
  move _ v := ⟨0, rfl⟩
end ExL

/-- Nothing is lost by reading, whatever throws, if no converter with a flag returns a value and leaves the flag unset. -/
theorem C90_no_leak_partial (P : Prog) (hoom : ∀ b, P.oom b = false) (E : Env) (N : Nest) (V : Codes) (g : Agree P E V) (y : Nat) (loc : Spot → Nat)
    (ret : Val.Obj → Option Nat) (p : Property) (hp : ∀ b gt st, p = .accessor b gt st → gt.params = [] ∧ gt.result ≠ none) (i : Option Vnt) (e : Exc)
    (h : p.get E N i = .throw e) (hd : ∀ v c u, Declined E v c u = false) (x : Nat) (s : State) (hs : s.env (some x) = none) (hn : s.env none = none)
    (hy : y ≠ x) (hy0 : s.env (some y) = none) : Leaves s (getProp P E N V y loc ret p i x s) .threw [] := by
  have h2 : ∀ b m c v, lostInstance E V b m c v = [] := fun b m c v => by simp [lostInstance, hd]
  have hl : lostRead E V p i = [] := by
    unfold lostRead
    split <;> simp [h2]
  have := (C90_refused P hoom E N V g y loc ret p hp i e h x s hs hn hy hy0).2
  rwa [hl] at this

/-- A read that is refused because a converter declined loses the pointer the converter made. -/
theorem C90_false : ∃ (P : Prog) (E : Env) (N : Nest) (V : Codes) (p : Property) (v : Vnt), Agree P E V ∧ (∀ b, P.oom b = false) ∧
    p.get E N (some v) = .throw .badVariantConvert ∧ ∀ loc ret,
    let r := getProp P E N V 9 loc ret p (some v) 0 VMem.init
    r.1 = .threw ∧ ctors (fun _ => true) r.2.mem.log = dtors (fun _ => true) r.2.mem.log + 1 := by
  refine ⟨ExL.progC, ExL.envP, ExI.nest, ExL.codes, .field ExV.N Ex.int 8, ExV.vPD, ExL.agreeP, fun _ => rfl, by decide +kernel, fun loc ret => ?_⟩
  have h : (Property.field ExV.N Ex.int 8).get ExL.envP ExI.nest (some ExV.vPD) = .throw .badVariantConvert := by decide +kernel
  have h := C90_refused ExL.progC (fun _ => rfl) ExL.envP ExI.nest ExL.codes ExL.agreeP 9 (fun _ => 0) (fun _ => none) (.field ExV.N Ex.int 8)
    (fun _ _ _ h => by cases h) (some ExV.vPD) .badVariantConvert h 0 VMem.init rfl rfl (by decide) rfl
  have e := h.1 loc ret
  intro r
  have er : r = getProp ExL.progC ExL.envP ExI.nest ExL.codes 9 (fun _ => 0) (fun _ => none) (.field ExV.N Ex.int 8) (some ExV.vPD) 0 VMem.init := e
  rw [er]
  decide +kernel

end Rtti.Props
