import Verif.Lemmas.InPlaceRun
/-! C87: converting a variant in place. -/
set_option autoImplicit false
namespace Rtti.Props
open VMem CallMem InPlace

def nowhere : Abs := ⟨fun _ => none, 0⟩

/-- What every program with conversions does is what the machine without memory says: every answer, every exception, every end, and what
    each variant contains. -/
theorem C87_exact (P : Prog) (as : List Act) :
    (InPlace.run P as VMem.init).1 = (told P as nowhere).1 ∧
    ∀ l, (InPlace.run P as VMem.init).1 = .ok l → view (InPlace.run P as VMem.init).2 = (told P as nowhere).2.σ := by
  obtain ⟨N, hN⟩ := bounded as
  obtain ⟨h1, h2⟩ := run_told as hN (Sim.init P)
  refine ⟨h1, fun l hl => ?_⟩
  obtain ⟨s0, g, -, h3, -⟩ := h2 l hl
  have e : told P as nowhere = told P as (VMem.abs VMem.init) := rfl
  rw [e, h3]
  rfl

/-- the states programs come to -/
def Comes (P : Prog) (s : State) : Prop := ∃ as l, InPlace.run P as VMem.init = (.ok l, s)

theorem Comes.sim {P : Prog} {s : State} (h : Comes P s) : ∃ s0 g, Sim P s0 g s := by
  obtain ⟨as, l, h⟩ := h
  obtain ⟨N, hN⟩ := bounded as
  obtain ⟨-, h2⟩ := run_told as hN (Sim.init P)
  rw [h] at h2
  obtain ⟨s0, g, h3, -⟩ := h2 l rfl
  exact ⟨s0, g, h3⟩

/-- A conversion that throws, or answers no, leaves what every variant contains. -/
theorem C87_failed (P : Prog) (s : State) (hs : Comes P s) (x t : Nat) (how : Held → Src) :
    ((act P (.convert x t how) s).1 = .threw → view (act P (.convert x t how) s).2 = view s) ∧
    ((act P (.tryConvert x t how) s).1 = .ok false → view (act P (.tryConvert x t how) s).2 = view s) := by
  obtain ⟨s0, g, h⟩ := hs.sim
  constructor
  · intro hr
    rcases act_ends h (.convert x t how) (N := x + 1) (by simp [Act.names]) with
      ⟨b, s', s0', g', e, -, -, hv, -⟩ | ⟨s', s0', g', e, -, -, hv, -⟩ | ⟨s', e, -⟩ | ⟨s', e, -⟩
    · rw [e] at hr; cases hr
    · rw [e]; exact hv
    · rw [e] at hr; cases hr
    · rw [e] at hr; cases hr
  · intro hr
    rcases act_ends h (.tryConvert x t how) (N := x + 1) (by simp [Act.names]) with
      ⟨b, s', s0', g', e, -, -, hv, -⟩ | ⟨s', s0', g', e, -, -, hv, -⟩ | ⟨s', e, -⟩ | ⟨s', e, -⟩
    · rw [e] at hr; cases hr; rw [e]; exact hv rfl
    · rw [e] at hr; cases hr
    · rw [e] at hr; cases hr
    · rw [e] at hr; cases hr

theorem converted_ok {P : Prog} {x t : Nat} {how : Held → Src} {s s' : Abs} {a : Content} (ht : target P t = true) (ha : s.σ x = some a)
    (h : converted P x t how s = (.ok (), s')) :
    ∃ v c, (toS P t (comesFrom t how a)).1 = .ok v ∧ (replace P a (fromValue P t v true) s.n).1 = .ok c ∧ s'.σ = upd s.σ x (some c) := by
  unfold converted at h
  simp only [ha, ht, if_true] at h
  cases e : (toS P t (comesFrom t how a)).1 with
  | ok v =>
    simp only [e] at h
    obtain ⟨c, h1, h2⟩ := act_inv h
    exact ⟨v, c, rfl, h1, h2⟩
  | _ => simp [e, toUnit] at h

/-- A conversion that succeeds leaves an object of the type asked for in the variant, and what every other variant contains. -/
theorem C87_succeeded (P : Prog) (s : State) (hs : Comes P s) (x t : Nat) (ht : target P t = true) (hx : (view s x).isSome) (how : Held → Src)
    (ok : (act P (.tryConvert x t how) s).1 = .ok true) :
    (∃ v, view (act P (.tryConvert x t how) s).2 x = some (.val t v)) ∧
    ∀ y, y ≠ x → view (act P (.tryConvert x t how) s).2 y = view s y := by
  obtain ⟨s0, g, h⟩ := hs.sim
  obtain ⟨a, ha⟩ := Option.isSome_iff_exists.1 hx
  rcases act_ends h (.tryConvert x t how) (N := x + 1) (by simp [Act.names]) with
    ⟨b, s', s0', g', e, -, ea, -, -⟩ | ⟨s', s0', g', e, -⟩ | ⟨s', e, -⟩ | ⟨s', e, -⟩
  · rw [e] at ok
    cases ok
    rw [e]
    simp only [acted] at ea
    rcases hc : converted P x t how (VMem.abs s) with ⟨o, q⟩
    rw [hc] at ea
    cases o with
    | ok u =>
      obtain ⟨v, c, -, h1, h2⟩ := converted_ok (a := a) ht ha hc
      simp only [Prod.mk.injEq] at ea
      have hv : view s' = upd (view s) x (some c) := by
        have : q.σ = view s' := by rw [ea.2]; rfl
        rw [← this, h2]; rfl
      obtain ⟨b, h3, h4⟩ := replace_inv h1
      have h5 := (fromValue_alike h3)
      refine ⟨?_, fun y hy => by rw [hv]; simp [upd, hy]⟩
      rw [hv]
      have : ∃ w, c = .val t w := by
        cases h5 <;> cases h4 <;> exact ⟨_, rfl⟩
      obtain ⟨w, rfl⟩ := this
      exact ⟨w, by simp [upd]⟩
    | _ => simp [answer] at ea
  · rw [e] at ok; cases ok
  · rw [e] at ok; cases ok
  · rw [e] at ok; cases ok

theorem moved_faithful {P : Prog} (hf : Faithful P) {t v w : Nat} (h : moved P t v = .ok w) : w = v := by
  have hcopy : ∀ w, copied P t v = .ok w → w = v := by
    intro w h
    unfold copied at h
    split at h
    · cases h
    · split at h
      · cases h
      · split at h
        · cases h
        · rename_i v' e; cases h; exact (hf t v).1 _ e
  unfold moved at h
  split at h
  · split at h
    · cases h
    · split at h
      · cases h
      · rename_i v' r e; cases h; exact (hf t v).2 _ _ e
  · exact hcopy w h

theorem sealed_ok {A : Type} {b : Bool} {o : Out A} {a : A} (h : o.sealed b = .ok a) : o = .ok a := by
  cases o <;> cases b <;> simp_all [Out.sealed]

theorem moveContent_faithful {P : Prog} (hf : Faithful P) {a c : Content} (h : moveContent P a = .ok c) : c = a := by
  cases a with
  | val t v =>
    simp only [moveContent] at h
    split at h
    · obtain ⟨w, h1, h2⟩ := Out.bind_ok h
      cases h2
      rw [moved_faithful hf (sealed_ok h1)]
    · cases h; rfl
  | _ => simp only [moveContent, Out.ok.injEq] at h; exact h.symm

theorem swapContent_faithful {P : Prog} (hf : Faithful P) {a b : Content} {r : Content × Content} (h : swapContent P a b = .ok r) : r = (b, a) := by
  have h := sealed_ok h
  split at h
  · rename_i e
    obtain ⟨w, h1, h2⟩ := Out.bind_ok h
    cases h2
    rw [moveContent_faithful hf h1, e]
  · split at h
    · rename_i e
      obtain ⟨w, h1, h2⟩ := Out.bind_ok h
      cases h2
      rw [moveContent_faithful hf h1, e]
    · obtain ⟨w, h1, h2⟩ := Out.bind_ok h
      obtain ⟨w2, h3, h4⟩ := Out.bind_ok h2
      obtain ⟨w3, h5, h6⟩ := Out.bind_ok h4
      cases h6
      rw [moveContent_faithful hf h3, moveContent_faithful hf h5, moveContent_faithful hf h1]

theorem toS_faithful {P : Prog} (hf : Faithful P) {t w : Nat} {src : Src} (h : (toS P t src).1 = .ok w) : src = .copy w ∨ src = .made w true := by
  have hp : ∀ {b : Bool} {o : Option Nat} {v : Nat}, promised b o = .ok v → o = some v := by
    intro b o v h
    cases o with
    | none => cases b <;> simp [promised] at h
    | some u => simp only [promised, Out.ok.injEq] at h; rw [h]
  have hcopy : ∀ {v w : Nat}, copyS P t v = some w → w = v := by
    intro v w h
    unfold copyS at h
    split at h
    · exact (hf t v).1 w h
    · cases h
  have hmove : ∀ {v w : Nat}, moveS P t v = .ok w → w = v := by
    intro v w h
    have h := hp h
    split at h
    · cases e : (P.ty t).move v with
      | none => rw [e] at h; cases h
      | some q => rw [e] at h; cases h; exact (hf t v).2 q.1 q.2 e
    · exact hcopy h
  unfold toS at h
  cases src with
  | fails => cases h
  | made v a =>
    cases a
    · cases h
    · simp only [fillS] at h
      rw [hmove h]; exact .inr rfl
  | copy v =>
    simp only [fillS] at h
    cases e : promised (P.ty t).nothrowCopy (copyS P t v) with
    | ok u =>
      rw [e] at h
      rw [hmove h, hcopy (hp e)]
      exact .inl rfl
    | _ => rw [e] at h; cases h

/-- Where copies and moves are faithful, the value is exactly the one copied or the one the converter made. -/
theorem C87_value (P : Prog) (hf : Faithful P) (s : State) (hs : Comes P s) (x t : Nat) (ht : target P t = true) (a : Content)
    (hx : view s x = some a) (how : Held → Src) (ok : (act P (.tryConvert x t how) s).1 = .ok true) :
    ∃ v, (comesFrom t how a = .copy v ∨ comesFrom t how a = .made v true) ∧
      view (act P (.tryConvert x t how) s).2 = upd (view s) x (some (.val t v)) := by
  obtain ⟨s0, g, h⟩ := hs.sim
  rcases act_ends h (.tryConvert x t how) (N := x + 1) (by simp [Act.names]) with
    ⟨b, s', s0', g', e, -, ea, -, -⟩ | ⟨s', s0', g', e, -⟩ | ⟨s', e, -⟩ | ⟨s', e, -⟩
  · rw [e] at ok
    cases ok
    rw [e]
    simp only [acted] at ea
    rcases hc : converted P x t how (VMem.abs s) with ⟨o, q⟩
    rw [hc] at ea
    cases o with
    | ok u =>
      obtain ⟨v, c, h0, h1, h2⟩ := converted_ok (a := a) ht hx hc
      refine ⟨v, toS_faithful hf h0, ?_⟩
      simp only [Prod.mk.injEq] at ea
      have hv : view s' = upd (view s) x (some c) := by
        have : q.σ = view s' := by rw [ea.2]; rfl
        rw [← this, h2]; rfl
      rw [hv]
      congr 2
      unfold replace at h1
      rcases hfv : fromValue P t v true (VMem.abs s).n with ⟨o, n⟩
      rw [hfv] at h1
      cases o with
      | ok b =>
        obtain ⟨w, h3, h4⟩ := Out.bind_ok h1
        cases h4
        rw [swapContent_faithful hf h3]
        have hfv := congrArg Prod.fst hfv
        simp only [fromValue, if_true, stored] at hfv
        have key : ∀ {o : Out Nat}, ((o.sealed (P.ty t).nothrowMove).bind fun v => (.ok (.val t v) : Out Content)) = .ok b → ∃ w, o = .ok w ∧ b = .val t w := by
          intro o h
          obtain ⟨w, h5, h6⟩ := Out.bind_ok h
          cases h6
          exact ⟨w, sealed_ok h5, rfl⟩
        have : ∃ w, moved P t v = .ok w ∧ b = .val t w := by
          split at hfv
          · exact key hfv
          · split at hfv
            · dsimp only at hfv; have := sealed_ok hfv; cases this
            · exact key hfv
        obtain ⟨w, h5, rfl⟩ := this
        rw [moved_faithful hf h5]
      | _ => cases h1
    | _ => simp [answer] at ea
  · rw [e] at ok; cases ok
  · rw [e] at ok; cases ok
  · rw [e] at ok; cases ok

/-- no constructor throws and memory never runs out -/
def Smooth (P : Prog) : Prop :=
  (∀ t, ((P.ty t).copyable || (P.ty t).movable) = true) ∧ (∀ t v, ((P.ty t).copy v).isSome) ∧ (∀ t v, ((P.ty t).move v).isSome) ∧ ∀ n, P.oom n = false

theorem Smooth.moved {P : Prog} (h : Smooth P) {t : Nat} (ha : (P.ty t).place ≠ .array) (v : Nat) : ∃ w, moved P t v = .ok w := by
  have hb : brokenArray P t = false := by simp [brokenArray, ha]
  unfold VMem.moved
  cases hm : (P.ty t).movable with
  | true =>
    obtain ⟨q, e⟩ := Option.isSome_iff_exists.1 (h.2.2.1 t v)
    exact ⟨q.1, by simp [hb, e]⟩
  | false =>
    have hc : (P.ty t).copyable = true := by simpa [hm] using h.1 t
    obtain ⟨q, e⟩ := Option.isSome_iff_exists.1 (h.2.1 t v)
    exact ⟨q, by simp [copied, hc, hb, e]⟩

theorem Smooth.moveContent {P : Prog} (h : Smooth P) (a : Content) : ∃ c, moveContent P a = .ok c := by
  cases a with
  | val t v =>
    simp only [VMem.moveContent]
    split
    · rename_i hp
      obtain ⟨w, e⟩ := h.moved (t := t) (by rw [hp]; simp) v
      exact ⟨_, by rw [e]; rfl⟩
    · exact ⟨_, rfl⟩
  | _ => exact ⟨_, rfl⟩

theorem Smooth.swapContent {P : Prog} (h : Smooth P) (a b : Content) : ∃ r, swapContent P a b = .ok r := by
  unfold VMem.swapContent
  split
  · obtain ⟨c, e⟩ := h.moveContent b; exact ⟨_, by rw [e]; rfl⟩
  · split
    · obtain ⟨c, e⟩ := h.moveContent a; exact ⟨_, by rw [e]; rfl⟩
    · obtain ⟨c, e⟩ := h.moveContent a
      obtain ⟨d, e2⟩ := h.moveContent b
      obtain ⟨f, e3⟩ := h.moveContent c
      exact ⟨(d, f), by simp only [e, e2, e3, Out.bind, Out.sealed]⟩

/-- Where no constructor throws and memory does not run out, `tryConvert` answers, and says yes exactly if there is something to copy or a converter that
    accepts. -/
theorem C87_answer (P : Prog) (hP : Smooth P) (s : State) (hs : Comes P s) (x t : Nat) (ht : target P t = true) (hc : (P.ty t).copyable = true)
    (a : Content) (hx : view s x = some a) (how : Held → Src) :
    ∃ b, (act P (.tryConvert x t how) s).1 = .ok b ∧ (b = true ↔ ∃ v, comesFrom t how a = .copy v ∨ comesFrom t how a = .made v true) := by
  obtain ⟨s0, g, h⟩ := hs.sim
  have hx' : (VMem.abs s).σ x = some a := hx
  have arr := (storable_target ht).1
  have hmv : ∀ v, ∃ w, moveS P t v = .ok w := by
    intro v
    unfold moveS
    cases hm : (P.ty t).movable with
    | true =>
      obtain ⟨q, e⟩ := Option.isSome_iff_exists.1 (hP.2.2.1 t v)
      exact ⟨q.1, by simp [e, promised]⟩
    | false =>
      obtain ⟨q, e⟩ := Option.isSome_iff_exists.1 (hP.2.1 t v)
      exact ⟨q, by simp [copyS, hc, e, promised]⟩
  have good : ∀ w, (toS P t (comesFrom t how a)).1 = .ok w → (converted P x t how (VMem.abs s)).1 = .ok () := by
    intro w e
    simp only [converted, hx', ht, if_true, e, Abs.act, replace, fromValue, stored, hP.2.2.2]
    obtain ⟨w', e'⟩ := hP.moved arr w
    obtain ⟨r, er⟩ := hP.swapContent (.val t w') a
    rw [e']
    cases (P.ty t).place <;> simp [Out.sealed, Out.bind, er]
  have out : (act P (.tryConvert x t how) s).1 = (acted P (.tryConvert x t how) (VMem.abs s)).1 := by
    rcases act_ends h (.tryConvert x t how) (N := x + 1) (by simp [Act.names]) with
      ⟨b, s', s0', g', e, -, ea, -, -⟩ | ⟨s', s0', g', e, -, ea, -⟩ | ⟨s', e, ea⟩ | ⟨s', e, ea⟩ <;> rw [e, ea]
  rw [out]
  simp only [acted]
  cases hsrc : comesFrom t how a with
  | fails =>
    refine ⟨false, ?_, by simp⟩
    simp [converted, hx', ht, hsrc, toS, fillS, toUnit, answer]
  | copy v =>
    refine ⟨true, ?_, by simp⟩
    obtain ⟨q, e⟩ := Option.isSome_iff_exists.1 (hP.2.1 t v)
    obtain ⟨w, ew⟩ := hmv q
    rw [good w (by simp [hsrc, toS, fillS, copyS, hc, e, promised, ew])]
    rfl
  | made v acc =>
    cases acc with
    | false =>
      refine ⟨false, ?_, by simp⟩
      simp [converted, hx', ht, hsrc, toS, fillS, toUnit, answer]
    | true =>
      refine ⟨true, ?_, by simp⟩
      obtain ⟨w, ew⟩ := hmv v
      rw [good w (by simp [hsrc, toS, fillS, ew])]
      rfl

/-- A conversion is never undefined. -/
theorem C87_defined (P : Prog) (s : State) (hs : Comes P s) (x t : Nat) (how : Held → Src) :
    (act P (.convert x t how) s).1 ≠ .ub ∧ (act P (.tryConvert x t how) s).1 ≠ .ub := by
  obtain ⟨s0, g, h⟩ := hs.sim
  constructor
  · rcases act_ends h (.convert x t how) (N := x + 1) (by simp [Act.names]) with
      ⟨b, s', s0', g', e, -⟩ | ⟨s', s0', g', e, -⟩ | ⟨s', e, -⟩ | ⟨s', e, ea⟩
    · rw [e]; simp
    · rw [e]; simp
    · rw [e]; simp
    · have := converted_defined P x t how (VMem.abs s)
      revert ea this
      simp only [acted]
      cases (converted P x t how (VMem.abs s)).1 <;> simp [answer]
  · rcases act_ends h (.tryConvert x t how) (N := x + 1) (by simp [Act.names]) with
      ⟨b, s', s0', g', e, -⟩ | ⟨s', s0', g', e, -⟩ | ⟨s', e, -⟩ | ⟨s', e, ea⟩
    · rw [e]; simp
    · rw [e]; simp
    · rw [e]; simp
    · have := converted_defined P x t how (VMem.abs s)
      revert ea this
      simp only [acted]
      cases (converted P x t how (VMem.abs s)).1 <;> simp [answer]

/-- `tryConvert` catches whatever is thrown. -/
theorem C87_catches (P : Prog) (s : State) (x t : Nat) (how : Held → Src) : (act P (.tryConvert x t how) s).1 ≠ .threw := by
  simp only [act, tryConvert]
  cases h : convert P x t how s with
  | mk o s' => cases o <;> simp

/-- Nothing is freed or destroyed twice, or without having been allocated or constructed, whatever the program. -/
theorem C87_history_proper (P : Prog) (as : List Act) : Proper (InPlace.run P as VMem.init).2.mem.log :=
  (keeping_run P as _ LogInv.init).proper

/-- Constructors and destructors, counted: the objects constructed are those destroyed, those in variants, and those left by swaps and
    by converters that gave up. -/
theorem C87_balance (P : Prog) (as : List Act) (l : List (Option Bool)) (h : (InPlace.run P as VMem.init).1 = .ok l) (N : Nat)
    (hN : ∀ a ∈ as, ∀ x ∈ a.names, x < N) :
    made (InPlace.run P as VMem.init).2.mem.log = ended (InPlace.run P as VMem.init).2.mem.log +
      objects (view (InPlace.run P as VMem.init).2) N + leftIn P as nowhere := by
  obtain ⟨-, h2⟩ := run_told as hN (Sim.init P)
  obtain ⟨-, -, -, -, this⟩ := h2 l h
  have e0 : objects (view VMem.init) N = 0 := by
    clear this hN h2
    induction N with
    | zero => rfl
    | succ N ih => rw [objects, ih]; rfl
  have e1 : leftIn P as (VMem.abs VMem.init) = leftIn P as nowhere := rfl
  rw [e0, e1] at this
  have e2 : made VMem.init.mem.log = 0 := rfl
  have e3 : ended VMem.init.mem.log = 0 := rfl
  omega

/-- When all variants are gone, every object was destroyed if and only if nothing was left. -/
theorem C87_destroyed_iff (P : Prog) (as : List Act) (l : List (Option Bool)) (h : (InPlace.run P as VMem.init).1 = .ok l)
    (hg : ∀ x, view (InPlace.run P as VMem.init).2 x = none) :
    (∀ id t, ¬Alive (InPlace.run P as VMem.init).2.mem.log id t) ↔ leftIn P as nowhere = 0 := by
  obtain ⟨N, hN⟩ := bounded as
  have hb := C87_balance P as l h N hN
  have e0 : objects (view (InPlace.run P as VMem.init).2) N = 0 := by
    clear hb hN
    induction N with
    | zero => rfl
    | succ N ih => simp [objects, ih, hg]
  obtain ⟨h1, h2, h3⟩ := survivors_spec (C87_history_proper P as)
  have : leftIn P as nowhere = (survivors (InPlace.run P as VMem.init).2.mem.log).length := by omega
  rw [this, List.length_eq_zero_iff, List.eq_nil_iff_forall_not_mem]
  constructor
  · rintro ha ⟨id, t⟩ hm; exact ha id t ((h2 id t).1 hm)
  · intro ha id t hm; exact ha (id, t) ((h2 id t).2 hm)

/-- to types with small objects (0), objects on the heap (1), and again small ones (9): `7` becomes `70` -/
def tenfold : Held → Src
  | .object _ v => .made (10 * v) true
  | _ => .fails

/-- makes an object and then says no -/
def hesitant : Held → Src
  | .object _ v => .made v false
  | _ => .fails

-- a program with everything
def convTour : List Act :=
  [.cmd (.value 0 0 7 false), .convert 0 1 tenfold, .tryConvert 0 0 hesitant, .cmd (.empty 1), .convert 1 0 tenfold, .tryConvert 1 0 tenfold,
   .tryConvert 0 1 hesitant, .cmd (.ref 2 0 99), .tryConvert 2 0 tenfold, .tryConvert 5 0 tenfold]

example : (InPlace.run sample convTour VMem.init).1 =
    .ok [some true, some true, some false, some true, none, some false, some true, some true, some false, some true] := by decide
example : view (InPlace.run sample convTour VMem.init).2 0 = some (.val 1 70) ∧ view (InPlace.run sample convTour VMem.init).2 1 = some .empty ∧
    view (InPlace.run sample convTour VMem.init).2 2 = some (.ref 0 99) := by decide
example : Comes sample (InPlace.run sample convTour VMem.init).2 := ⟨convTour, _, rfl⟩
example : target sample 1 = true ∧ target sample 3 = false := by decide

example : Faithful sample := by
  intro t v
  simp only [sample]
  unfold sampleTypes
  split <;> simp <;> intros <;> simp_all
example : Smooth ⟨fun t => sampleTypes (if t = 1 then 1 else 0), fun _ => false⟩ := by
  refine ⟨fun t => ?_, fun t v => ?_, fun t v => ?_, fun _ => rfl⟩ <;> dsimp only <;> split <;> simp [sampleTypes]

/-- Converting between types whose objects are in the variant leaves three objects, the old one moved twice and the new one once. -/
theorem C87_leaves_objects_false :
    (InPlace.run sample [.cmd (.value 0 0 7 false), .convert 0 9 tenfold, .cmd (.destroy 0)] VMem.init).1 = .ok [some true, some true, some true] ∧
    view (InPlace.run sample [.cmd (.value 0 0 7 false), .convert 0 9 tenfold, .cmd (.destroy 0)] VMem.init).2 0 = none ∧
    leftIn sample [.cmd (.value 0 0 7 false), .convert 0 9 tenfold, .cmd (.destroy 0)] nowhere = 3 := by decide

/-- A converter that constructs its result and then declines: the object is never destroyed. -/
theorem C87_declined_false :
    (InPlace.run sample [.cmd (.value 0 1 7 false), .tryConvert 0 0 hesitant, .cmd (.destroy 0)] VMem.init).1 = .ok [some true, some false, some true] ∧
    leftIn sample [.cmd (.value 0 1 7 false), .tryConvert 0 0 hesitant, .cmd (.destroy 0)] nowhere = 1 := by decide

-- on the heap nothing is left
example : leftIn sample [.cmd (.value 0 1 7 false), .convert 0 2 tenfold, .tryConvert 0 4 tenfold, .cmd (.destroy 0)] nowhere = 0 ∧
    (InPlace.run sample [.cmd (.value 0 1 7 false), .convert 0 2 tenfold, .tryConvert 0 4 tenfold, .cmd (.destroy 0)] VMem.init).1 =
      .ok [some true, some true, some true, some true] := by decide

/-- small objects whose move constructor throws when it finds a 13, as the third move does here -/
def countdown : Prog := ⟨fun t => if t = 0 then ⟨.small, true, true, false, false, false, some, fun v => if v = 13 then none else some (v + 1, v)⟩
  else sampleTypes t, fun _ => false⟩

/-- `tryConvert` ends the program instead of answering no, if the exception comes while the variants are swapped; if it comes earlier, it
    answers. -/
theorem C87_ends_program_false :
    (InPlace.run countdown [.cmd (.empty 0), .cmd (.value 1 1 1 false), .tryConvert 1 0 fun _ => .made 11 true] VMem.init).1 = .terminated ∧
    (InPlace.run countdown [.cmd (.value 1 1 1 false), .tryConvert 1 0 fun _ => .made 12 true] VMem.init).1 = .ok [some true, some false] := by decide

end Rtti.Props
