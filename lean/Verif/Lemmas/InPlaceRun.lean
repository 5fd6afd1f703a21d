import Verif.Lemmas.InPlace
import Verif.Props.VariantExact
/-! Programs that convert variants in place. -/
set_option autoImplicit false
namespace Rtti.InPlace
open VMem CallMem

theorem broken_copy {P : Prog} {t : Nat} (hc : (P.ty t).copyable = true) (ha : (P.ty t).place = .array) (ht : (P.ty t).trivial = false) (v : Nat) (m : Mem) :
    copyVal P t v m = (.ub, m) := by
  simp [copyVal, hc, ha, ht]

theorem broken_move {P : Prog} {t : Nat} (hc : storable P t true = true) (ha : (P.ty t).place = .array) (ht : (P.ty t).trivial = false) (v : Nat) (m : Mem) :
    moveVal P t v m = (.ub, m) := by
  cases hm : (P.ty t).movable with
  | true => simp [moveVal, hm, ha, ht]
  | false =>
    have : (P.ty t).copyable = true := by simpa [storable, hm] using hc
    simp [moveVal, hm, broken_copy this ha ht]

theorem bind_ok {A B : Type} {f : M A} {k : A → M B} {m m' : Mem} {a : A} (h : f m = (.ok a, m')) : (f >>= k) m = k a m' := by
  simp only [Bind.bind, M.bind, h]

theorem bind_ub {A B : Type} {f : M A} {k : A → M B} {m m' : Mem} (h : f m = (.ub, m')) : (f >>= k) m = (.ub, m') := by
  simp only [Bind.bind, M.bind, h]

theorem noexcept_ub {A : Type} {c : Bool} {f : M A} {m : Mem} (h : (f m).1 = .ub) : (noexcept c f m).1 = .ub := by
  unfold noexcept
  rcases e : f m with ⟨o, m'⟩
  rw [e] at h
  dsimp only at h
  subst h
  rfl

theorem newValue_ub {P : Prog} {k : Option Nat} {t v : Nat} {r : Bool} (hs : storable P t r = true) (ha : (P.ty t).place = .array)
    (ht : (P.ty t).trivial = false) {s : State} (ho : P.oom s.mem.nextBlock = false) : (newValue P k t v r s).1 = .ub := by
  have hall : allocate P s.mem = (.ok s.mem.nextBlock, (allocate P s.mem).2) := by simp [allocate, ho]
  have key : ((if r then fMoveConstruct P t v else fCopyConstruct P t v) s.mem).1 = .ub := by
    cases r with
    | true =>
      simp only [if_true, fMoveConstruct, ha]
      refine noexcept_ub ?_
      rw [bind_ok hall, bind_ub (f := moveNew P t v) (m' := (allocate P s.mem).2)]
      exact bind_ub (broken_move hs ha ht v _)
    | false =>
      have hc : (P.ty t).copyable = true := by simpa [storable] using hs
      simp only [Bool.false_eq_true, if_false, fCopyConstruct, ha]
      refine noexcept_ub ?_
      rw [bind_ok hall, bind_ub (broken_copy hc ha ht v _)]
  unfold newValue
  have hs' : ((P.ty t).copyable || (r && (P.ty t).movable)) = true := hs
  simp only [hs', if_true, lift]
  rcases e : (if r then fMoveConstruct P t v else fCopyConstruct P t v) s.mem with ⟨o, m'⟩
  rw [e] at key
  dsimp only at key
  subst key
  rfl

theorem newCopy_ub {P : Prog} {s0 s : State} {g : Nat → Option Obj} (h : Sim P s0 g s) {k l : Option Nat} {t : Nat} {c : Cell}
    (hl : s0.env l = some ⟨.own t, c⟩) (hc : (P.ty t).copyable = true) (ha : (P.ty t).place = .array)
    (ht : (P.ty t).trivial = false) (ho : P.oom s.mem.nextBlock = false) : (newCopy P k l s).1 = .ub := by
  have eenv : s.env = s0.env := by rw [h.is]; rfl
  have hall : allocate P s.mem = (.ok s.mem.nextBlock, (allocate P s.mem).2) := by simp [allocate, ho]
  obtain ⟨id, v, hi, -, hloc⟩ := Inv.located h.good hl
  have hobj : (allocate P s.mem).2.objs id = some ⟨t, v⟩ := by
    have : (allocate P s.mem).2.objs = s.mem.objs := by simp [allocate, ho]
    rw [this, h.is]
    exact plus_some hi
  have hloc := hloc (allocate P s.mem).2 fun b x e => by
    have hb : s.mem.blocks = s0.mem.blocks := by rw [h.is]; rfl
    have hn : s.mem.nextBlock = s0.mem.nextBlock := by rw [h.is]; rfl
    have := h.good.blt b x e
    have hne : b ≠ s.mem.nextBlock := by omega
    simp [allocate, ho, upd, hne, hb, e]
  have key : (copyOf P ⟨.own t, c⟩ s.mem).1 = .ub := by
    have h1 : (fCopy P (.own t) c .raw s.mem).1 = .ub := by
      simp only [fCopy, ha]
      refine noexcept_ub ?_
      rw [bind_ok hall, bind_ub (f := copyFrom P t c) (m' := (allocate P s.mem).2)]
      unfold copyFrom
      rw [bind_ok hloc]
      simp [copyObj, hobj, broken_copy hc ha ht]
    rcases e : fCopy P (.own t) c .raw s.mem with ⟨o, m'⟩
    rw [e] at h1
    dsimp only at h1
    subst h1
    unfold copyOf
    dsimp only
    rw [bind_ub e]
  simp only [newCopy, eenv, hl, lift]
  rcases e : copyOf P ⟨.own t, c⟩ s.mem with ⟨o, m'⟩
  rw [e] at key
  dsimp only at key
  subst key
  rfl

theorem seq_ub {f f' : Step} {s : State} (h : (f s).1 = .ub) : (seq f f' s).1 = .ub := by
  unfold seq
  rcases e : f s with ⟨o, s'⟩
  rw [e] at h
  dsimp only at h
  subst h
  rfl

theorem view_val {P : Prog} {s : State} (gd : Good P s) {x t v : Nat} (h : VMem.view s x = some (.val t v)) :
    ∃ c, s.env (some x) = some ⟨.own t, c⟩ := by
  unfold VMem.view at h
  cases e : s.env (some x) with
  | none => rw [e] at h; cases h
  | some var =>
    rw [e] at h
    obtain ⟨m, c⟩ := var
    cases m with
    | void => simp [content] at h
    | ref u => obtain ⟨a, rfl⟩ := gd.refs _ _ _ e; simp [content] at h
    | own u =>
      obtain ⟨id, w, -, hc, -⟩ := Inv.located gd e
      simp only [Option.bind_some, hc, Option.some.injEq, Content.val.injEq] at h
      exact ⟨c, by rw [h.1]⟩

/-- undefined is undefined with more objects too -/
theorem exec_ub {P : Prog} {s0 s : State} {g : Nat → Option Obj} (h : Sim P s0 g s) {c : Cmd} (hu : Undefined P c (VMem.abs s)) :
    (exec P c s).1 = .ub := by
  have eenv : s.env = s0.env := by rw [h.is]; rfl
  have hn : (VMem.abs s).n = s.mem.nextBlock := rfl
  have hσ : (VMem.abs s).σ = VMem.view s0 := h.view
  have live : ∀ x, isLive s x = (VMem.view s0 x).isSome := by
    intro x
    have := h.good.live (some x)
    rw [see_some] at this
    rw [this, ← eenv]; rfl
  rcases hu with ⟨x, t, v, rfl, hx, hp, ht⟩ | ⟨t, hm, ha, ht, ho⟩
  · rw [hσ] at hx
    obtain ⟨c, hc⟩ := view_val h.good hx
    have : swapSelf P ⟨.own t, c⟩ s.mem = (.ub, s.mem) := by
      obtain ⟨id, v, rfl, -⟩ := h.good.small _ _ _ hc hp
      simp [swapSelf, noexcept, hp, ht, M.ub]
    simp only [exec, doSwap, eenv, hc, if_true, lift, this]
  · rw [hσ] at hm
    rw [hn] at ho
    cases c with
    | value x u v r =>
      simp only [makes] at hm
      split at hm
      · rename_i hc
        cases hm
        simp only [Bool.and_eq_true] at hc
        have hl : isLive s x = false := by
          rw [live]
          cases e : VMem.view s0 x <;> simp [e] at hc ⊢
        simp only [exec, hl, Bool.false_eq_true, if_false]
        exact newValue_ub hc.2 ha ht ho
      · cases hm
    | copy x y =>
      simp only [makes] at hm
      cases ex : VMem.view s0 x with
      | some a => simp [ex] at hm
      | none =>
        cases ey : VMem.view s0 y with
        | none => simp [ex, ey] at hm
        | some b =>
          cases b with
          | val u v =>
            simp only [ex, ey] at hm
            split at hm
            · rename_i hc
              cases hm
              obtain ⟨c, hcy⟩ := view_val h.good ey
              simp only [exec, live, ex, ey, Option.isSome_none, Option.isSome_some, Bool.not_true, Bool.or_self, Bool.false_eq_true, if_false]
              exact newCopy_ub h hcy hc ha ht ho
            · cases hm
          | _ => simp [ex, ey] at hm
    | assign x y =>
      simp only [makes] at hm
      cases ex : VMem.view s0 x with
      | none => simp [ex] at hm
      | some a =>
        cases ey : VMem.view s0 y with
        | none => simp [ex, ey] at hm
        | some b =>
          cases b with
          | val u v =>
            simp only [ex, ey] at hm
            split at hm
            · rename_i hc
              cases hm
              simp only [Bool.and_eq_true, decide_eq_true_eq] at hc
              obtain ⟨c, hcy⟩ := view_val h.good ey
              simp only [exec, live, ex, ey, Option.isSome_some, Bool.not_true, Bool.or_self, hc.1, decide_false, Bool.false_eq_true, if_false]
              exact seq_ub (newCopy_ub h hcy hc.2 ha ht ho)
            · cases hm
          | _ => simp [ex, ey] at hm
    | assignValue x u v r =>
      simp only [makes] at hm
      split at hm
      · rename_i hc
        cases hm
        simp only [Bool.and_eq_true] at hc
        have hs' : ((P.ty t).copyable || (r && (P.ty t).movable)) = true := hc.2
        simp only [exec, live, hc.1, hs', Bool.not_true, Bool.or_self, Bool.false_eq_true, if_false]
        exact seq_ub (newValue_ub hc.2 ha ht ho)
      · cases hm
    | _ => simp [makes] at hm

theorem toS_defined (P : Prog) (t : Nat) (src : Src) : (toS P t src).1 ≠ .ub := by
  have hp : ∀ b o, promised b o ≠ .ub := by
    intro b o
    cases o <;> cases b <;> simp [promised]
  have hf : (fillS P t src).1 ≠ .ub := by
    cases src with
    | copy v => exact hp _ _
    | made v a => cases a <;> simp [fillS]
    | fails => simp [fillS]
  unfold toS
  rcases e : fillS P t src with ⟨o, l⟩
  rw [e] at hf
  cases o with
  | ok v => exact hp _ _
  | _ => exact hf

theorem converted_defined (P : Prog) (x t : Nat) (how : Held → Src) (s : Abs) : (converted P x t how s).1 ≠ .ub := by
  unfold converted
  cases hx : s.σ x with
  | none => simp
  | some a =>
    dsimp only
    split
    · rename_i ht
      obtain ⟨ha, hs⟩ := storable_target ht
      have hd := toS_defined P t (comesFrom t how a)
      cases e : (toS P t (comesFrom t how a)).1 with
      | ok v =>
        dsimp only
        have hm : meant P (.assignValue x t v true) s = s.act (replace P a (fromValue P t v true)) fun c => upd s.σ x (some c) := by
          simp only [meant, hx, hs, Bool.not_true, Bool.false_eq_true, if_false]
        rw [← hm]
        intro hu
        rw [Props.meant_ub] at hu
        rcases hu with ⟨_, _, _, e, _⟩ | ⟨u, hmk, hu, _⟩
        · cases e
        · simp only [makes, hx, hs, Option.isSome_some, Bool.and_self, if_true, Option.some.injEq] at hmk
          subst hmk
          exact ha hu
      | ub => exact absurd e hd
      | threw => simp [toUnit]
      | terminated => simp [toUnit]
    · simp

/-- how a step of a program ends -/
def EndsA (P : Prog) (s : State) (N k : Nat) (a : Out Bool × Abs) (r : Out Bool × State) : Prop :=
  (∃ b s' s0' g', r = (.ok b, s') ∧ Sim P s0' g' s' ∧ a = (.ok b, VMem.abs s') ∧ (b = false → VMem.view s' = VMem.view s) ∧
    made s'.mem.log + ended s.mem.log + objects (VMem.view s) N = made s.mem.log + ended s'.mem.log + objects (VMem.view s') N + k) ∨
  (∃ s' s0' g', r = (.threw, s') ∧ Sim P s0' g' s' ∧ a = (.threw, VMem.abs s') ∧ VMem.view s' = VMem.view s ∧
    made s'.mem.log + ended s.mem.log + objects (VMem.view s) N = made s.mem.log + ended s'.mem.log + objects (VMem.view s') N + k) ∨
  (∃ s', r = (.terminated, s') ∧ a.1 = .terminated) ∨
  (∃ s', r = (.ub, s') ∧ a.1 = .ub)

theorem Ends.yes {P : Prog} {s : State} {N k : Nat} {a : Out Unit × Abs} {r : Out Unit × State} (h : Ends P s N k a r) (hu : a.1 = .ub → r.1 = .ub) :
    EndsA P s N k (answer false a.1, a.2) (yes r) := by
  rcases h with ⟨s', s0', g', rfl, hs, rfl, hc⟩ | ⟨s', s0', g', rfl, hs, rfl, hv, hc⟩ | ⟨s', rfl, ha⟩ | ha
  · exact .inl ⟨true, s', s0', g', rfl, hs, rfl, by simp, hc⟩
  · exact .inr (.inl ⟨s', s0', g', rfl, hs, rfl, hv, by rw [hv]; omega⟩)
  · exact .inr (.inr (.inl ⟨s', rfl, by rw [ha]; rfl⟩))
  · have := hu ha
    obtain ⟨o, s'⟩ := r
    dsimp only at this
    subst this
    exact .inr (.inr (.inr ⟨s', rfl, by rw [ha]; rfl⟩))

theorem act_ends {P : Prog} {s0 s : State} {g : Nat → Option Obj} (h : Sim P s0 g s) (a : Act) {N : Nat} (hN : ∀ x ∈ a.names, x < N) :
    EndsA P s N (left P a (VMem.abs s)) (acted P a (VMem.abs s)) (act P a s) := by
  cases a with
  | cmd c =>
    have := exec_ends h c hN
    exact this.yes fun hu => exec_ub h ((Props.meant_ub P c _).1 hu)
  | convert x t how =>
    have := convert_ends h x t how (hN x (by simp [Act.names]))
    exact this.yes fun hu => absurd hu (converted_defined _ _ _ _ _)
  | tryConvert x t how =>
    rcases convert_ends h x t how (hN x (by simp [Act.names])) with
      ⟨s', s0', g', e, hs, ea, hc⟩ | ⟨s', s0', g', e, hs, ea, hv, hc⟩ | ⟨s', e, ea⟩ | ea
    · exact .inl ⟨true, s', s0', g', by simp [act, tryConvert, e], hs, by simp [acted, ea, answer], by simp, hc⟩
    · exact .inl ⟨false, s', s0', g', by simp [act, tryConvert, e], hs, by simp [acted, ea, answer], fun _ => hv, by
        rw [hv]; simp only [left]; omega⟩
    · exact .inr (.inr (.inl ⟨s', by simp [act, tryConvert, e], by simp [acted, ea, answer]⟩))
    · exact absurd ea (converted_defined _ _ _ _ _)

theorem run_told {P : Prog} {N : Nat} (as : List Act) (hN : ∀ a ∈ as, ∀ x ∈ a.names, x < N) : ∀ {s0 s : State} {g : Nat → Option Obj}, Sim P s0 g s →
    (run P as s).1 = (told P as (VMem.abs s)).1 ∧
    ∀ l, (run P as s).1 = .ok l → ∃ s0' g', Sim P s0' g' (run P as s).2 ∧ (told P as (VMem.abs s)).2 = VMem.abs (run P as s).2 ∧
      made (run P as s).2.mem.log + ended s.mem.log + objects (VMem.view s) N =
        made s.mem.log + ended (run P as s).2.mem.log + objects (VMem.view (run P as s).2) N + leftIn P as (VMem.abs s) := by
  induction as with
  | nil => intro s0 s g h; exact ⟨rfl, fun l _ => ⟨s0, g, h, rfl, by simp [run, leftIn]⟩⟩
  | cons a as ih =>
    intro s0 s g h
    have ih := fun {s0 s : State} {g : Nat → Option Obj} => @ih (fun a ha => hN a (.tail _ ha)) s0 s g
    rcases act_ends h a (hN a (.head _)) with ⟨b, s', s0', g', e, hs, ea, -, hc⟩ | ⟨s', s0', g', e, hs, ea, -, hc⟩ | ⟨s', e, ea⟩ | ⟨s', e, ea⟩
    · obtain ⟨i1, i2⟩ := ih hs
      simp only [run, told, leftIn, e, ea]
      rw [← i1]
      rcases er : run P as s' with ⟨o, s2⟩
      rw [er] at i2
      cases o with
      | ok l =>
        refine ⟨rfl, fun l' _ => ?_⟩
        obtain ⟨s0'', g'', hs2, h3, h4⟩ := i2 l rfl
        refine ⟨s0'', g'', hs2, h3, ?_⟩
        dsimp only at h4 ⊢
        omega
      | _ => exact ⟨rfl, fun l' h => by cases h⟩
    · obtain ⟨i1, i2⟩ := ih hs
      simp only [run, told, leftIn, e, ea]
      rw [← i1]
      rcases er : run P as s' with ⟨o, s2⟩
      rw [er] at i2
      cases o with
      | ok l =>
        refine ⟨rfl, fun l' _ => ?_⟩
        obtain ⟨s0'', g'', hs2, h3, h4⟩ := i2 l rfl
        refine ⟨s0'', g'', hs2, h3, ?_⟩
        dsimp only at h4 ⊢
        omega
      | _ => exact ⟨rfl, fun l' h => by cases h⟩
    · rcases em : acted P a (VMem.abs s) with ⟨o, q⟩
      rw [em] at ea
      dsimp only at ea
      subst ea
      simp only [run, told, e, em]
      exact ⟨trivial, fun l h => by cases h⟩
    · rcases em : acted P a (VMem.abs s) with ⟨o, q⟩
      rw [em] at ea
      dsimp only at ea
      subst ea
      simp only [run, told, e, em]
      exact ⟨trivial, fun l h => by cases h⟩

theorem Sim.init (P : Prog) : Sim P VMem.init (fun _ => Option.none) VMem.init := by
  exact { is := rfl, apart := (fun _ _ e => nomatch e), good := Good.init P, noTemp := rfl }

theorem bounded (as : List Act) : ∃ N, ∀ a ∈ as, ∀ x ∈ a.names, x < N := by
  have one : ∀ l : List Nat, ∃ N, ∀ x ∈ l, x < N := by
    intro l
    induction l with
    | nil => exact ⟨0, by simp⟩
    | cons a l ih =>
      obtain ⟨N, hN⟩ := ih
      exact ⟨N + a + 1, fun x hx => by
        rcases List.mem_cons.1 hx with rfl | hx
        · omega
        · have := hN x hx; omega⟩
  obtain ⟨N, hN⟩ := one (as.flatMap Act.names)
  exact ⟨N, fun a ha x hx => hN x (List.mem_flatMap.2 ⟨a, ha, hx⟩)⟩

/-! ### The history stays proper -/

theorem _root_.Rtti.VMem.Keeping.threw {A : Type} : Keeping (M.threw : M A) := fun _ h => h

theorem _root_.Rtti.VMem.Keeping.finallyM {A : Type} {f : M A} {g : M Unit} (hf : Keeping f) (hg : Keeping g) : Keeping (finallyM f g) := by
  intro m h
  have h1 := hf m h
  unfold CallMem.finallyM
  rcases ef : f m with ⟨o, m'⟩
  rw [ef] at h1
  have h2 := hg m' h1
  rcases eg : g m' with ⟨q, m''⟩
  rw [eg] at h2
  cases o with
  | ok a => cases q <;> simp only [eg] <;> exact h2
  | threw => cases q <;> simp only [eg] <;> exact h2
  | _ => exact h1

theorem _root_.Rtti.VMem.Keeping.to (P : Prog) (t : Nat) (src : Src) : Keeping (to P t src) := by
  refine .bind ?_ fun _ => .finallyM (.noexcept (.moveObj _ _ _)) (.destroyObj _ _)
  cases src with
  | copy v => exact .noexcept (.copyVal _ _ _)
  | made v a => exact .bind (.born _ _) fun _ => by cases a <;> first | exact .threw | exact .pure _
  | fails => exact .threw

theorem _root_.Rtti.VMem.Keeping.look (P : Prog) (x : Var) : Keeping (look P x) := by
  unfold InPlace.look
  split
  · exact .pure _
  · exact .pure _
  · exact .ub
  · refine .bind (.locate _ _) fun id => .bind ?_ fun _ => .pure _
    intro m h
    unfold readObj
    split
    · exact h
    · split <;> exact h

theorem keeping_bindM {A : Type} {f : M A} {k : A → Step} (hf : Keeping f) (hk : ∀ a, KeepingS (k a)) : KeepingS (bindM f k) := by
  intro s h
  have := hf s.mem h
  unfold bindM
  split
  · rename_i e; rw [e] at this; exact hk _ _ this
  all_goals rename_i e; rw [e] at this; exact this

theorem keeping_store (P : Prog) (t x r : Nat) : KeepingS (store P t x r) := by
  intro s h
  unfold store
  split
  · exact h
  · rename_i o _
    have h1 := KeepingS.viaTemp P (KeepingS.newValue P Option.none t o.val true) x s h
    have hd : KeepingS (drop t r) := KeepingS.lift (.destroyObj t r) fun _ _ => rfl
    unfold finally'
    rcases ef : viaTemp P (newValue P Option.none t o.val true) x s with ⟨q, s'⟩
    rw [ef] at h1
    have h2 := hd s' h1
    rcases eg : drop t r s' with ⟨w, s''⟩
    rw [eg] at h2
    cases q with
    | ok a => cases w <;> simp only [eg] <;> exact h2
    | threw => cases w <;> simp only [eg] <;> exact h2
    | _ => exact h1

theorem keeping_convert (P : Prog) (x t : Nat) (how : Held → Src) : KeepingS (convert P x t how) := by
  intro s h
  unfold convert
  split
  · exact h
  · split
    · exact keeping_bindM (.look P _) (fun _ => keeping_bindM (.to P t _) fun r => keeping_store P t x r) s h
    · exact h

theorem keeping_act (P : Prog) (a : Act) (s : State) (h : LogInv s.mem) : LogInv (act P a s).2.mem := by
  have hy : ∀ r : Out Unit × State, (yes r).2 = r.2 := by
    rintro ⟨o, s⟩
    cases o <;> rfl
  cases a with
  | cmd c => simp only [act, hy]; exact KeepingS.exec P c s h
  | convert x t how => simp only [act, hy]; exact keeping_convert P x t how s h
  | tryConvert x t how =>
    have := keeping_convert P x t how s h
    simp only [act, tryConvert]
    rcases e : convert P x t how s with ⟨o, s'⟩
    rw [e] at this
    cases o <;> exact this

theorem keeping_run (P : Prog) (as : List Act) : ∀ s : State, LogInv s.mem → LogInv (run P as s).2.mem := by
  induction as with
  | nil => intro s h; exact h
  | cons a as ih =>
    intro s h
    have := keeping_act P a s h
    unfold run
    rcases e : act P a s with ⟨o, s'⟩
    rw [e] at this
    have i := ih s' this
    rcases er : run P as s' with ⟨q, s''⟩
    rw [er] at i
    cases o with
    | ok b => simp only [er]; cases q <;> exact i
    | threw => simp only [er]; cases q <;> exact i
    | _ => exact this

end Rtti.InPlace
