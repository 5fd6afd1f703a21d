import Verif.Model.Errors
import Verif.Lemmas.Graph
import Verif.Lemmas.LazyMore
import Verif.Lemmas.NamedList
set_option autoImplicit false
namespace Rtti

/-! ### the registry -/
namespace World

theorem ownMethod_quiet (w : World) (c : Ptr) (n : Str) (e : Err) : w.ownMethod c n ≠ .throw e := by
  obtain ⟨r, h, _⟩ := ownMethod_spec w c n
  rw [h]; exact nofun

theorem firstBase_quiet (w : World) (f : Ptr → Res (Option Ptr)) (hf : ∀ p e, f p ≠ .throw e) (l : List (TypeId × Caster)) (e : Err) :
    firstBase w f l ≠ .throw e := by
  induction l with
  | nil => exact nofun
  | cons x l ih =>
    unfold firstBase
    split
    · exact nofun
    · rename_i b _
      have := hf b
      generalize f b = r at this
      cases r with
      | val o => cases o with
        | none => exact ih
        | some p => exact nofun
      | throw e' => exact absurd rfl (this e')
      | ub => exact nofun
      | diverge => exact nofun

theorem classMethodF_quiet (w : World) (fuel : Nat) (c : Ptr) (n : Str) (e : Err) : w.classMethodF fuel c n ≠ .throw e := by
  induction fuel generalizing c e with
  | zero => exact nofun
  | succ k ih =>
    unfold classMethodF
    split
    · exact nofun
    · have := ownMethod_quiet w c n
      generalize w.ownMethod c n = r at this
      cases r with
      | val o => cases o with
        | none => exact firstBase_quiet w _ (fun p e => ih p e) _ e
        | some p => exact nofun
      | throw e' => exact absurd rfl (this e')
      | ub => exact nofun
      | diverge => exact nofun

theorem classPropertyF_quiet (w : World) (fuel : Nat) (c : Ptr) (n : Str) (e : Err) : w.classPropertyF fuel c n ≠ .throw e := by
  induction fuel generalizing c e with
  | zero => exact nofun
  | succ k ih =>
    unfold classPropertyF
    split
    · exact nofun
    · split
      · exact nofun
      · exact firstBase_quiet w _ (fun p e => ih p e) _ e

theorem getMethod_quiet (w : World) (c : Ptr) (n : Str) (e : Err) : w.getMethod c n ≠ .throw e := by
  unfold getMethod
  split
  · exact nofun
  · split
    · exact classMethodF_quiet w _ c n e
    · exact ownMethod_quiet w c n e
    · exact nofun

theorem getProperty_quiet (w : World) (c : Ptr) (n : Str) (e : Err) : w.getProperty c n ≠ .throw e := by
  unfold getProperty
  split
  · exact classPropertyF_quiet w _ c n e
  · exact nofun
  · exact nofun

theorem getConstructor_quiet (w : World) (c : Ptr) (n : Str) (e : Err) : w.getConstructor c n ≠ .throw e := by
  unfold getConstructor
  split
  · obtain ⟨r, h, _⟩ := findMethod_spec n (w.cont c .constructor).items
    rw [h]
    cases r <;> exact nofun
  · exact nofun

theorem getItem_quiet (w : World) (c : Ptr) (k : Cat) (n : Str) (e : Err) : w.getItem c k n ≠ .throw e := by
  unfold getItem
  split <;> exact nofun

theorem anyBase_quiet (w : World) (f : Ptr → Res Bool) (hf : ∀ p e, f p ≠ .throw e) (l : List (TypeId × Caster)) (e : Err) :
    anyBase w f l ≠ .throw e := by
  induction l with
  | nil => exact nofun
  | cons x l ih =>
    unfold anyBase
    split
    · exact nofun
    · rename_i b _
      have := hf b
      generalize f b = r at this
      cases r with
      | val o => cases o with
        | true => exact nofun
        | false => exact ih
      | throw e' => exact absurd rfl (this e')
      | ub => exact nofun
      | diverge => exact nofun

theorem inheritedFromF_quiet (w : World) (fuel : Nat) (c : Ptr) (b : Option Ptr) (e : Err) : w.inheritedFromF fuel c b ≠ .throw e := by
  induction fuel generalizing c e with
  | zero => exact nofun
  | succ k ih =>
    unfold inheritedFromF
    split
    · exact nofun
    · split
      · exact nofun
      · exact anyBase_quiet w _ (fun p e => ih p e) _ e

theorem inheritedFrom_quiet (w : World) (c : Ptr) (b : Option Ptr) (e : Err) : w.inheritedFrom c b ≠ .throw e :=
  inheritedFromF_quiet w _ c b e

theorem castBase_quiet (w : World) (inh : Ptr → Res Bool) (cast : Ptr → Addr → Res Addr) (a : Addr) (hi : ∀ p e, inh p ≠ .throw e)
    (hc : ∀ p a e, cast p a ≠ .throw e) (l : List (TypeId × Caster)) (e : Err) : castBase w inh cast a l ≠ .throw e := by
  induction l with
  | nil => exact nofun
  | cons x l ih =>
    unfold castBase
    split
    · exact nofun
    · rename_i b _
      have h1 := hi b
      generalize inh b = r at h1
      cases r with
      | val o => cases o with
        | false => exact ih
        | true =>
          have h2 := hc b (x.2 a)
          dsimp only
          generalize cast b (x.2 a) = r at h2
          cases r with
          | throw e' => exact absurd rfl (h2 e')
          | val _ => exact nofun
          | ub => exact nofun
          | diverge => exact nofun
      | throw e' => exact absurd rfl (h1 e')
      | ub => exact nofun
      | diverge => exact nofun

theorem castF_quiet (w : World) (fuel : Nat) (c : Ptr) (b : Option Ptr) (a : Addr) (e : Err) : w.castF fuel c b a ≠ .throw e := by
  induction fuel generalizing c a e with
  | zero => exact nofun
  | succ k ih =>
    unfold castF
    split
    · exact nofun
    · split
      · exact nofun
      · rename_i b _
        have := castBase_quiet w (fun p => inheritedFromF w k p (some b)) (fun p a => castF w k p (some b) a) a
          (fun p e => inheritedFromF_quiet w k p _ e) (fun p a e => ih p a e) (w.cls c).bases
        generalize castBase w _ _ a (w.cls c).bases = r at this
        cases r with
        | val o => cases o <;> exact nofun
        | throw e' => exact absurd rfl (this e')
        | ub => exact nofun
        | diverge => exact nofun

theorem cast_quiet (w : World) (c : Ptr) (b : Option Ptr) (a : Addr) (e : Err) : w.cast c b a ≠ .throw e := castF_quiet w _ c b a e

/-- looking up, then creating, throws only what looking up throws -/
theorem getOrCreate_quiet (w : World) (o : Ptr) (k : Cat) (n : Str) (t : TypeId) (look : World → Res (Option Ptr))
    (stored : World → Ptr → World) (hl : ∀ w e, look w ≠ .throw e) (e : Err) :
    (w.getOrCreate o k n t look stored).2 ≠ .throw e := by
  unfold getOrCreate
  have := hl w
  generalize look w = r at this
  cases r with
  | val o =>
    cases o with
    | none =>
      dsimp only
      split
      · exact nofun
      · exact hl _ e
    | some p => exact nofun
  | throw e' => exact absurd rfl (this e')
  | ub => exact nofun
  | diverge => exact nofun

end World

/-! ### variants and calls -/
namespace Val

theorem bind_throw {A B : Type} {m : Ret A} {f : A → Ret B} {e : Exc} (h : m.bind f = .throw e) :
    m = .throw e ∨ ∃ a, m = .ok a ∧ f a = .throw e := by
  cases m with
  | ok a => exact .inr ⟨a, rfl, h⟩
  | throw e' => cases h; exact .inl rfl
  | terminate => cases h
  | ub => cases h
  | diverge => cases h

theorem lift_quiet {A : Type} {r : Res A} (h : ∀ e, r ≠ .throw e) (e : Exc) : Ret.lift r ≠ .throw e := by
  cases r with
  | throw e' => exact absurd rfl (h e')
  | val _ => exact nofun
  | ub => exact nofun
  | diverge => exact nofun

theorem objectInfo_quiet (E : Env) (b : Base) (a : Addr) (e : Exc) : objectInfo E b a ≠ .throw e := by
  unfold objectInfo
  split
  · split <;> exact nofun
  · exact nofun

theorem classInfo_quiet (E : Env) (v : Vnt) (e : Exc) : classInfo E v ≠ .throw e := by
  unfold classInfo
  split
  · exact nofun
  · split
    · exact nofun
    · split
      · exact nofun
      · exact objectInfo_quiet _ _ _ _
      · exact objectInfo_quiet _ _ _ _

theorem isImp_quiet (E : Env) (v : Vnt) (c : Base) (e : Exc) : isImp E v c ≠ .throw e := by
  intro h
  rcases bind_throw h with h | ⟨i, _, h⟩
  · exact classInfo_quiet E v e h
  · split at h
    · cases h
    · split at h
      · exact lift_quiet (fun e => World.inheritedFrom_quiet _ _ _ _) e h
      · cases h

theorem castImp_quiet (E : Env) (v : Vnt) (c : Base) (e : Exc) : castImp E v c ≠ .throw e := by
  intro h
  rcases bind_throw h with h | ⟨i, _, h⟩
  · exact classInfo_quiet E v e h
  · split at h
    · cases h
    · split at h
      · exact lift_quiet (fun e => World.cast_quiet _ _ _ _ _) e h
      · cases h

theorem compat_quiet (S T : RType) (e : Exc) : compat S T ≠ .throw e := by
  unfold compat
  split <;> exact nofun

theorem metafuncIs_quiet (E : Env) (v : Vnt) (S T : RType) (e : Exc) : metafuncIs E v S T ≠ .throw e := by
  unfold metafuncIs
  split
  · exact nofun
  · intro h
    rcases bind_throw h with h | ⟨i, _, h⟩
    · exact compat_quiet S T e h
    · repeat' split at h
      all_goals first | cases h | exact isImp_quiet E v _ e h

theorem castTo_throw {E : Env} {v : Vnt} {S T : RType} {e : Exc} (h : castTo E v S T = .throw e) : e = .badVariantCast := by
  unfold castTo at h
  split at h
  · cases h
  · split at h
    · exact absurd h (castImp_quiet _ _ _ _)
    · cases h
  · split at h
    · rcases bind_throw h with h | ⟨p, _, h⟩
      · exact absurd h (castImp_quiet _ _ _ _)
      · repeat' split at h
        all_goals cases h
        rfl
    · cases h

theorem metafuncCast_throw {E : Env} {v : Vnt} {S T : RType} {e : Exc} (h : metafuncCast E v S T = .throw e) : e = .badVariantCast := by
  unfold metafuncCast at h
  split at h
  · cases h; rfl
  · rcases bind_throw h with h | ⟨c, _, h⟩
    · exact absurd h (compat_quiet _ _ _)
    · rcases bind_throw h with h | ⟨x, _, h⟩
      · repeat' split at h
        all_goals first | cases h; done | exact castTo_throw h
      · repeat' split at h
        all_goals cases h
        rfl

theorem copyConstruct_throw {E : Env} {t : CType} {a : Addr} {e : Exc} (h : copyConstruct E t a = .throw e) :
    e = .user ∧ E.copyThrows t.fullDecay a = true ∨ e = .runtimeError ∧ copyable t = false := by
  unfold copyConstruct at h
  split at h
  · split at h
    · rename_i h'; cases h; exact .inl ⟨rfl, h'⟩
    · cases h
  · rename_i h'; cases h; exact .inr ⟨rfl, by simpa using h'⟩

theorem convert_throw {E : Env} {a : Addr} {S T : CType} {e : Exc} (h : convert E a S T = .throw e) : e = .user := by
  unfold convert at h
  repeat' split at h
  all_goals cases h
  rfl

theorem metafuncTo_throw {E : Env} {v : Vnt} {S : RType} {t : CType} {e : Exc} (h : metafuncTo E v S t = .throw e) :
    e = .badVariantConvert ∨ e = .user ∨ e = .runtimeError ∧ copyable t = false := by
  have cc : ∀ {a}, copyConstruct E t a = .throw e → e = .badVariantConvert ∨ e = .user ∨ e = .runtimeError ∧ copyable t = false :=
    fun h => (copyConstruct_throw h).elim (fun h => .inr (.inl h.1)) fun h => .inr (.inr h)
  unfold metafuncTo at h
  split at h
  · cases h; exact .inl rfl
  · rcases bind_throw h with h | ⟨c, _, h⟩
    · exact absurd h (compat_quiet _ _ _)
    · split at h
      · exact cc h
      · rcases bind_throw h with h | ⟨r, _, h⟩
        · split at h
          · unfold toCast at h
            split at h
            · cases h
            · split at h
              · rcases bind_throw h with h | ⟨p, _, h⟩
                · exact absurd h (castImp_quiet _ _ _ _)
                · split at h
                  · cases h
                  · rcases bind_throw h with h | ⟨_, _, h⟩
                    · exact cc h
                    · cases h
              · cases h
            · split at h
              · rcases bind_throw h with h | ⟨p, _, h⟩
                · exact absurd h (castImp_quiet _ _ _ _)
                · split at h <;> cases h
              · cases h
          · cases h
        · split at h
          · cases h
          · rcases bind_throw h with h | ⟨r, _, h⟩
            · exact .inr (.inl (convert_throw h))
            · split at h
              · cases h
              · cases h; exact .inl rfl

theorem data_quiet (E : Env) (v : Vnt) (c : Bool) (t : CType) (e : Exc) : data E v c t ≠ .throw e := by
  unfold data
  split
  · exact nofun
  · rename_i h
    exact h e

/-- the library's own exceptions for casts, and the user's -/
def Cast (e : Exc) : Prop := e = .badVariantCast ∨ e = .badVariantConvert ∨ e = .badArgumentCast ∨ e = .user

theorem resolve_throw {E : Env} {N : Nest} {a : Arg} {w : Bool} {e : Exc} (h : a.resolve E N w = .throw e) : e = .badVariantCast := by
  unfold Arg.resolve at h
  split at h
  · rcases bind_throw h with h | ⟨_, _, h⟩
    · exact metafuncCast_throw h
    · cases h
  · cases h

theorem get_throw {E : Env} {N : Nest} {a : Arg} {p : RType} {e : Exc} (h : a.get E N p = .throw e) :
    Cast e ∨ e = .runtimeError ∧ copyable p.t.decay = false := by
  have ct : ∀ {v c}, to E v c p.t.decay = .throw e → Cast e ∨ e = .runtimeError ∧ copyable p.t.decay = false := fun h => by
    rcases metafuncTo_throw h with h | h | h
    · exact .inl (.inr (.inl h))
    · exact .inl (.inr (.inr (.inr h)))
    · exact .inr h
  unfold Arg.get at h
  dsimp only at h
  split at h
  · cases h; exact .inl (.inr (.inr (.inl rfl)))
  · split at h
    · split at h
      · cases h; exact .inl (.inl rfl)
      · rcases bind_throw h with h | ⟨v, _, h⟩
        · exact .inl (.inl (resolve_throw h))
        · rcases bind_throw h with h | ⟨x, _, h⟩
          · exact absurd h (data_quiet _ _ _ _ _)
          · split at h
            · cases h
            · rcases bind_throw h with h | ⟨_, _, h⟩
              · exact ct h
              · cases h
    · split at h
      · rcases bind_throw h with h | ⟨v, _, h⟩
        · exact .inl (.inl (resolve_throw h))
        · rcases bind_throw h with h | ⟨x, _, h⟩
          · exact absurd h (data_quiet _ _ _ _ _)
          · split at h
            · cases h
            · rcases bind_throw h with h | ⟨_, _, h⟩
              · exact ct h
              · cases h
      · split at h
        · cases h; exact .inl (.inl rfl)
        · rcases bind_throw h with h | ⟨v, _, h⟩
          · exact .inl (.inl (resolve_throw h))
          · rcases bind_throw h with h | ⟨_, _, h⟩
            · exact .inl (.inl (metafuncCast_throw h))
            · cases h
    · rcases bind_throw h with h | ⟨v, _, h⟩
      · exact .inl (.inl (resolve_throw h))
      · rcases bind_throw h with h | ⟨_, _, h⟩
        · exact ct h
        · cases h

/-- the library's own exceptions for calls, and the user's -/
def Own (e : Exc) : Prop := Cast e ∨ e = .runtimeError ∨ e = .invokeError

theorem getAll_throw {E : Env} {N : Nest} {ps : List RType} {as : List Arg} {e : Exc} (h : getAll E N ps as = .throw e) :
    Cast e ∨ e = .runtimeError ∧ ∃ p ∈ ps, copyable p.t.decay = false := by
  induction ps generalizing as with
  | nil => cases h
  | cons p ps ih =>
    cases as with
    | nil => cases h
    | cons a as =>
      rcases bind_throw h with h | ⟨_, _, h⟩
      · rcases get_throw h with h | ⟨h, h'⟩
        · exact .inl h
        · exact .inr ⟨h, p, List.mem_cons_self, h'⟩
      · rcases bind_throw h with h | ⟨_, _, h⟩
        · rcases ih h with h | ⟨h, p, hp, h'⟩
          · exact .inl h
          · exact .inr ⟨h, p, List.mem_cons_of_mem _ hp, h'⟩
        · cases h

theorem getAll_own {E : Env} {N : Nest} {ps : List RType} {as : List Arg} {e : Exc} (h : getAll E N ps as = .throw e) : Own e :=
  (getAll_throw h).elim .inl fun h => .inr (.inl h.1)

theorem pack_throw {n : Nat} {as : List Arg} {e : Exc} (h : pack n as = .throw e) : e = .invokeError := by
  unfold pack at h
  split at h <;> cases h
  rfl

theorem static_throw {E : Env} {N : Nest} {f : Fn} {as : List Arg} {e : Exc} (h : staticInvoke E N f as = .throw e) : Own e := by
  rcases bind_throw h with h | ⟨_, _, h⟩
  · exact .inr (.inr (pack_throw h))
  · rcases bind_throw h with h | ⟨_, _, h⟩
    · exact getAll_own h
    · cases h

theorem to_own {E : Env} {v : Vnt} {c : Bool} {t : CType} {e : Exc} (h : to E v c t = .throw e) : Own e := by
  rcases metafuncTo_throw h with h | h | h
  · exact .inl (.inr (.inl h))
  · exact .inl (.inr (.inr (.inr h)))
  · exact .inr (.inl h.1)

theorem object_throw {E : Env} {b : Base} {m c : Bool} {v : Vnt} {e : Exc} (h : object E b m c v = .throw e) : Own e := by
  unfold object at h
  split at h
  · cases h
  · split at h
    · split at h
      · cases h; exact .inl (.inl rfl)
      · rcases bind_throw h with h | ⟨_, _, h⟩
        · exact .inl (.inl (metafuncCast_throw h))
        · cases h
    · split at h
      · rcases bind_throw h with h | ⟨_, _, h⟩
        · exact to_own h
        · split at h <;> cases h
      · cases h

theorem member_throw {E : Env} {N : Nest} {f : Fn} {b : Base} {c : Bool} {v : Vnt} {as : List Arg} {e : Exc}
    (h : memberInvoke E N f b c v as = .throw e) : Own e := by
  rcases bind_throw h with h | ⟨_, _, h⟩
  · exact .inr (.inr (pack_throw h))
  · rcases bind_throw h with h | ⟨_, _, h⟩
    · exact object_throw h
    · split at h
      · cases h
      · rcases bind_throw h with h | ⟨_, _, h⟩
        · exact getAll_own h
        · cases h

theorem method_throw {E : Env} {N : Nest} {f : Fn} {i : Inst} {as : List Arg} {e : Exc} (h : methodInvoke E N f i as = .throw e) : Own e := by
  unfold methodInvoke at h
  split at h
  · exact static_throw h
  · exact member_throw h

theorem propGet_throw {E : Env} {N : Nest} {p : Property} {i : Option Vnt} {e : Exc} (h : p.get E N i = .throw e) : Own e := by
  unfold Property.get at h
  split at h
  · split at h <;> cases h
    exact .inr (.inr rfl)
  · split at h
    · cases h; exact .inr (.inr rfl)
    · rcases bind_throw h with h | ⟨o, _, h⟩
      · exact object_throw h
      · split at h <;> cases h
    · rcases bind_throw h with h | ⟨o, _, h⟩
      · exact member_throw h
      · cases h

theorem newValue_throw {E : Env} {N : Nest} {t : CType} {a : Arg} {e : Exc} (h : newValue E N t a = .throw e) : Own e := by
  rcases bind_throw h with h | ⟨o, _, h⟩
  · exact (get_throw h).elim .inl fun h => .inr (.inl h.1)
  · split at h <;> cases h

theorem propSet_throw {E : Env} {N : Nest} {p : Property} {i : Option (Bool × Vnt)} {a : Arg} {e : Exc} (h : p.set E N i a = .throw e) :
    Own e := by
  have two : ∀ {b : Base} {t : CType} {c : Bool} {v : Vnt} {off : Nat},
      ((newValue E N t a).bind fun m => (object E b false c v).bind fun o =>
        match o with
        | none => .ok .nothing
        | some o => .ok (Wrote.assigned ⟨o, off⟩ m)) = .throw e → Own e := by
    intro b t c v off h
    rcases bind_throw h with h | ⟨_, _, h⟩
    · exact newValue_throw h
    · rcases bind_throw h with h | ⟨o, _, h⟩
      · exact object_throw h
      · cases o <;> cases h
  unfold Property.set at h
  split at h
  · split at h
    · split at h
      · cases h; exact .inr (.inr rfl)
      · rcases bind_throw h with h | ⟨_, _, h⟩
        · exact newValue_throw h
        · cases h
    · cases h; exact .inr (.inr rfl)
  · split at h
    · cases h; exact .inr (.inr rfl)
    · split at h
      · cases h; exact .inr (.inr rfl)
      · split at h
        · cases h
        · split at h
          · split at h
            · cases h; exact .inl (.inl rfl)
            · exact two h
          · split at h
            · exact two h
            · cases h
    · rcases bind_throw h with h | ⟨_, _, h⟩
      · exact member_throw h
      · cases h

theorem memberClass_throw {E : Env} {v : Vnt} {e : Exc} (h : memberClass E v = .throw e) : e = .runtimeError := by
  unfold memberClass at h
  split at h
  · cases h; rfl
  · split at h
    · rcases bind_throw h with h | ⟨c, _, h⟩
      · rcases bind_throw h with h | ⟨_, _, h⟩
        · exact absurd h (classInfo_quiet _ _ _)
        · cases h
      · split at h <;> cases h
        rfl
    · cases h; rfl

theorem invokeNamed_throw {E : Env} {N : Nest} {fn : Ptr → Fn} {i : Inst} {n : Str} {as : List Arg} {e : Exc}
    (h : invokeNamed E N fn i n as = .throw e) : Own e := by
  rcases bind_throw h with h | ⟨c, _, h⟩
  · exact .inr (.inl (memberClass_throw h))
  · rcases bind_throw h with h | ⟨m, _, h⟩
    · exact absurd h (lift_quiet (fun e => World.getMethod_quiet _ _ _ _) e)
    · split at h
      · exact method_throw h
      · cases h; exact .inr (.inl rfl)

theorem getNamed_throw {E : Env} {N : Nest} {pr : Ptr → Property} {v : Vnt} {n : Str} {e : Exc} (h : getNamed E N pr v n = .throw e) :
    Own e := by
  rcases bind_throw h with h | ⟨c, _, h⟩
  · exact .inr (.inl (memberClass_throw h))
  · rcases bind_throw h with h | ⟨m, _, h⟩
    · exact absurd h (lift_quiet (fun e => World.getProperty_quiet _ _ _ _) e)
    · split at h
      · exact propGet_throw h
      · cases h; exact .inr (.inl rfl)

theorem setNamed_throw {E : Env} {N : Nest} {pr : Ptr → Property} {v : Vnt} {n : Str} {a : Arg} {e : Exc}
    (h : setNamed E N pr v n a = .throw e) : Own e := by
  rcases bind_throw h with h | ⟨c, _, h⟩
  · exact .inr (.inl (memberClass_throw h))
  · rcases bind_throw h with h | ⟨m, _, h⟩
    · exact absurd h (lift_quiet (fun e => World.getProperty_quiet _ _ _ _) e)
    · split at h
      · exact propSet_throw h
      · cases h; exact .inr (.inl rfl)

end Val

/-! ### lazy definitions -/
namespace Lazy
open LM

/-- attribute lists as they come about -/
def AttrsOk (s : LW) : Prop := ∀ p, ∃ h, NamedList.Rep (s.attrs p) h

/-- keeps the lists that way, and never throws `std::out_of_range` -/
def Tame {A : Type} (m : LM A) : Prop := ∀ s, AttrsOk s → AttrsOk (m s).1 ∧ (m s).2 ≠ .throw .outOfRange

theorem Tame.pure {A : Type} (a : A) : Tame (LM.pure a) := fun _ h => ⟨h, nofun⟩
theorem Tame.ub {A : Type} : Tame (LM.ub : LM A) := fun _ h => ⟨h, nofun⟩
theorem Tame.diverge {A : Type} : Tame (LM.diverge : LM A) := fun _ h => ⟨h, nofun⟩

theorem Tame.read {A : Type} {f : World → Res A} (hf : ∀ w, f w ≠ .throw .outOfRange) : Tame (LM.read f) := fun s h => ⟨h, hf s.w⟩

theorem Tame.change {A : Type} {f : World → World × Res A} (hf : ∀ w, (f w).2 ≠ .throw .outOfRange) : Tame (LM.change f) :=
  fun s h => ⟨h, hf s.w⟩

theorem Tame.bind {A B : Type} {m : LM A} {f : A → LM B} (hm : Tame m) (hf : ∀ a, Tame (f a)) : Tame (m.bind f) := by
  intro s h
  obtain ⟨h1, h2⟩ := hm s h
  unfold LM.bind
  generalize m s = r at h1 h2
  obtain ⟨s', r | e | _ | _⟩ := r
  · exact hf r s' h1
  · refine ⟨h1, fun h => h2 ?_⟩
    cases h; rfl
  · exact ⟨h1, nofun⟩
  · exact ⟨h1, nofun⟩

theorem Tame.withBases {A : Type} {p : Ptr} {k : List (TypeId × Caster) → LM A} (hk : ∀ l, Tame (k l)) : Tame (Lazy.withBases p k) :=
  fun s h => hk _ { s with iter := p :: s.iter } h

theorem Tame.base {A : Type} {t : TypeId} {k : Ptr → LM A} (hk : ∀ p, Tame (k p)) :
    Tame ((LM.read fun w => match w.find t with | none => .ub | some q => .val q).bind k) :=
  .bind (.read fun w => by split <;> exact nofun) hk

theorem Tame.firstBase {f : Ptr → LM (Option Ptr)} (hf : ∀ p, Tame (f p)) (l : List (TypeId × Caster)) : Tame (Lazy.firstBase f l) := by
  induction l with
  | nil => exact .pure _
  | cons x l ih =>
    refine .base fun p => .bind (hf p) fun r => ?_
    cases r with
    | none => exact ih
    | some _ => exact .pure _

theorem Tame.anyBase {f : Ptr → LM Bool} (hf : ∀ p, Tame (f p)) (l : List (TypeId × Caster)) : Tame (Lazy.anyBase f l) := by
  induction l with
  | nil => exact .pure _
  | cons x l ih =>
    refine .base fun p => .bind (hf p) fun r => ?_
    cases r with
    | false => exact ih
    | true => exact .pure _

theorem Tame.castBase {inh : Ptr → LM Bool} {cast : Ptr → Addr → LM Addr} (hi : ∀ p, Tame (inh p)) (hc : ∀ p a, Tame (cast p a)) (a : Addr)
    (l : List (TypeId × Caster)) : Tame (Lazy.castBase inh cast a l) := by
  induction l with
  | nil => exact .pure _
  | cons x l ih =>
    refine .base fun p => .bind (hi p) fun r => ?_
    cases r with
    | false => exact ih
    | true => exact .bind (hc _ _) fun _ => .pure _

section
variable {chk : Ptr → LM Unit} (hk : ∀ p, Tame (chk p))
include hk

theorem Tame.classMethod (fuel : Nat) (c : Ptr) (n : Str) : Tame (Lazy.classMethod chk fuel c n) := by
  induction fuel generalizing c with
  | zero => exact .diverge
  | succ k ih =>
    unfold Lazy.classMethod
    split
    · exact .pure _
    · refine .bind (hk c) fun _ => .bind (.read fun w => World.ownMethod_quiet w c n _) fun r => ?_
      cases r with
      | some _ => exact .pure _
      | none => exact .withBases fun l => .firstBase (fun p => ih p) l

theorem Tame.classProperty (fuel : Nat) (c : Ptr) (n : Str) : Tame (Lazy.classProperty chk fuel c n) := by
  induction fuel generalizing c with
  | zero => exact .diverge
  | succ k ih =>
    unfold Lazy.classProperty
    split
    · exact .pure _
    · refine .bind (hk c) fun _ => .bind (.read fun w => nofun) fun r => ?_
      cases r with
      | some _ => exact .pure _
      | none => exact .withBases fun l => .firstBase (fun p => ih p) l

theorem Tame.getMethod (fuel : Nat) (c : Ptr) (n : Str) : Tame (Lazy.getMethod chk fuel c n) := by
  unfold Lazy.getMethod
  split
  · exact .pure _
  · refine .bind (.read fun w => nofun) fun r => ?_
    split
    · exact .classMethod hk fuel c n
    · exact .bind (hk c) fun _ => .read fun w => World.ownMethod_quiet w c n _
    · exact .ub

theorem Tame.getProperty (fuel : Nat) (c : Ptr) (n : Str) : Tame (Lazy.getProperty chk fuel c n) := by
  unfold Lazy.getProperty
  refine .bind (.read fun w => nofun) fun r => ?_
  split
  · exact .classProperty hk fuel c n
  · exact .bind (hk c) fun _ => .read fun w => nofun
  · exact .ub

theorem Tame.getConstructor (c : Ptr) (n : Str) : Tame (Lazy.getConstructor chk c n) :=
  .bind (hk c) fun _ => .read fun w => World.getConstructor_quiet w c n _

theorem Tame.getItem (c : Ptr) (k : Cat) (n : Str) : Tame (Lazy.getItem chk c k n) :=
  .bind (hk c) fun _ => .read fun w => World.getItem_quiet w c k n _

theorem Tame.inheritedFrom (fuel : Nat) (c : Ptr) (b : Option Ptr) : Tame (Lazy.inheritedFrom chk fuel c b) := by
  induction fuel generalizing c with
  | zero => exact .diverge
  | succ k ih =>
    unfold Lazy.inheritedFrom
    split
    · exact .pure _
    · split
      · exact .pure _
      · exact .bind (hk c) fun _ => .withBases fun l => .anyBase (fun p => ih p) l

theorem Tame.cast (fuel : Nat) (c : Ptr) (b : Option Ptr) (a : Addr) : Tame (Lazy.cast chk fuel c b a) := by
  induction fuel generalizing c a with
  | zero => exact .diverge
  | succ k ih =>
    unfold Lazy.cast
    split
    · exact .pure _
    · split
      · exact .pure _
      · exact .bind (hk c) fun _ =>
          .bind (.withBases fun l => .castBase (fun p => .inheritedFrom hk k p _) (fun p a => ih p a) a l) fun _ => .pure _

omit hk in
theorem Tame.getOrCreate {look : LM (Option Ptr)} {f : World → World × Res (Option Ptr)} (hl : Tame look)
    (hf : ∀ w, (f w).2 ≠ .throw .outOfRange) : Tame (Lazy.getOrCreate look f) := by
  refine .bind hl fun r => ?_
  cases r with
  | some _ => exact .pure _
  | none =>
    refine .bind (.change hf) fun r => ?_
    cases r with
    | some _ => exact .pure _
    | none => exact hl

omit hk in
theorem tryCreate_quiet (o : Ptr) (k : Cat) (n : Str) (t : TypeId) (w : World) (e : Err) : (tryCreate o k n t w).2 ≠ .throw e := by
  unfold tryCreate
  dsimp only
  split <;> exact nofun

omit hk in
theorem tryCreateClass_quiet (o : Ptr) (n : Str) (t : TypeId) (w : World) : (tryCreateClass o n t w).2 ≠ .throw .outOfRange := by
  unfold tryCreateClass
  split
  · exact nofun
  · split
    · exact nofun
    · have := tryCreate_quiet o .cls n t w .outOfRange
      generalize tryCreate o .cls n t w = r at this
      split
      · exact nofun
      · exact this

omit hk in
theorem addBaseClass_quiet (w : World) (p : Ptr) (t : TypeId) (c : Caster) : (w.addBaseClass p t c).2 ≠ .throw .outOfRange := by
  unfold World.addBaseClass World.addDerivedClass
  dsimp only
  repeat' split
  all_goals exact nofun

omit hk in
theorem addBase_quiet (w : World) (p : Ptr) (t : TypeId) (c : Caster) : (w.step (.addBase p t c)).2 ≠ .throw .outOfRange := by
  simp only [World.step]
  split
  · have := addBaseClass_quiet w p t c
    generalize w.addBaseClass p t c = r at this
    obtain ⟨w', r | e | _ | _⟩ := r
    · exact nofun
    · exact fun h => this (by cases h; rfl)
    · exact nofun
    · exact nofun
  · exact nofun

theorem Tame.op (fuel : Nat) (o : World.Op) : Tame (Lazy.op chk fuel o) := by
  have cont : ∀ (o : Ptr), Tame (LM.read fun w : World => if w.isContainer o then (.val () : Res Unit) else .ub) := fun o =>
    .read fun w => by split <;> exact nofun
  cases o with
  | registerType t => exact .change fun w => by simp only [World.step]; split <;> exact nofun
  | createNamespace o n => exact .getOrCreate (.getItem hk _ _ _) fun w => tryCreate_quiet _ _ _ _ w _
  | createEnum o n => exact .getOrCreate (.getItem hk _ _ _) fun w => tryCreate_quiet _ _ _ _ w _
  | createClass o n t => exact .getOrCreate (.getItem hk _ _ _) fun w => tryCreateClass_quiet _ _ _ w
  | createMethod o s i =>
    refine .bind (cont o) fun _ => ?_
    split
    · exact .pure _
    · exact .getOrCreate (.getMethod hk _ _ _) fun w => tryCreate_quiet _ _ _ _ w _
  | createProperty o s i =>
    refine .bind (cont o) fun _ => ?_
    split
    · exact .pure _
    · exact .getOrCreate (.getProperty hk _ _ _) fun w => tryCreate_quiet _ _ _ _ w _
  | createConstructor o s i =>
    refine .bind (cont o) fun _ => ?_
    split
    · exact .pure _
    · exact .getOrCreate (.getConstructor hk _ _) fun w => tryCreate_quiet _ _ _ _ w _
  | addBase p t c =>
    intro s h
    unfold Lazy.op
    dsimp only
    split
    · exact ⟨h, nofun⟩
    · exact Tame.change (fun w => addBase_quiet w p t c) s h

omit hk in
theorem Tame.onlyIf (p : World → Bool) : Tame (Lazy.onlyIf p) := .read fun w => by split <;> exact nofun

theorem Tame.query (fuel : Nat) (q : Query) : Tame (Lazy.query chk fuel q) := by
  cases q with
  | item c k n => exact .bind (.getItem hk _ _ _) fun _ => .pure _
  | itemAt c k i => exact .bind (hk _) fun _ => .bind (.onlyIf _) fun _ => .read fun w => nofun
  | count c k => exact .bind (hk _) fun _ => .bind (.onlyIf _) fun _ => .read fun w => nofun
  | constructor c n => exact .bind (.getConstructor hk _ _) fun _ => .pure _
  | method c n => exact .bind (.getMethod hk _ _ _) fun _ => .pure _
  | property c n => exact .bind (.getProperty hk _ _ _) fun _ => .pure _
  | attr c n => exact .bind (hk _) fun _ s h => ⟨h, nofun⟩
  | baseCount c => exact .bind (hk _) fun _ => .bind (.onlyIf _) fun _ => .read fun w => nofun
  | derivedCount c => exact .bind (hk _) fun _ => .bind (.onlyIf _) fun _ => .read fun w => nofun
  | inherited c b => exact .bind (.onlyIf _) fun _ => .bind (.inheritedFrom hk _ _ _) fun _ => .pure _
  | cast c b a => exact .bind (.onlyIf _) fun _ => .bind (.cast hk _ _ _ _) fun _ => .pure _

omit hk in
theorem Tame.install (p : Ptr) (b : List Cmd) : Tame (Lazy.install p b) := by
  intro s h
  unfold Lazy.install
  split
  · exact ⟨h, nofun⟩
  · split
    · exact ⟨h, nofun⟩
    · exact ⟨h, nofun⟩

omit hk in
theorem Tame.setAttr (p : Ptr) (n : Str) (v : Nat) : Tame (Lazy.setAttr p n v) := by
  intro s h
  obtain ⟨l, hl⟩ := h p
  obtain ⟨l', e, hl'⟩ := hl.set n v
  unfold Lazy.setAttr
  rw [e]
  refine ⟨fun q => ?_, nofun⟩
  dsimp only
  by_cases hq : q = p
  · subst hq; rw [upd_same]; exact ⟨_, hl'⟩
  · rw [upd_ne _ _ hq]; exact h q

mutual
theorem Tame.exec (fuel : Nat) : ∀ c, Tame (Lazy.exec chk fuel c)
  | .op o => by unfold Lazy.exec; exact .bind (.op hk fuel o) fun _ => .pure _
  | .setAttr p n v => by unfold Lazy.exec; exact .bind (.setAttr p n v) fun _ => .pure _
  | .query q => by unfold Lazy.exec; exact .query hk fuel q
  | .install p b => by unfold Lazy.exec; exact .bind (.install p b) fun _ => .pure _
  | .raise => by unfold Lazy.exec; exact fun s h => ⟨h, nofun⟩
  | .attempt b => by
    unfold Lazy.exec
    refine .bind (fun s h => ?_) fun _ => .pure _
    have h1 := (Tame.execs fuel b s h).1
    unfold Lazy.catchAll
    generalize Lazy.execs chk fuel b s = r at h1
    obtain ⟨s', r | e | _ | _⟩ := r <;> exact ⟨h1, nofun⟩
theorem Tame.execs (fuel : Nat) : ∀ cs, Tame (Lazy.execs chk fuel cs)
  | [] => by unfold Lazy.execs; exact .pure _
  | c :: cs => by unfold Lazy.execs; exact .bind (Tame.exec fuel c) fun _ => .bind (Tame.execs fuel cs) fun _ => .pure _
end
end

theorem Tame.check (fuel : Nat) (p : Ptr) : Tame (Lazy.check fuel p) := by
  induction fuel generalizing p with
  | zero => exact fun s h => ⟨h, nofun⟩
  | succ k ih =>
    intro s h
    unfold Lazy.check
    split
    · exact ⟨h, nofun⟩
    · split
      · exact ⟨h, nofun⟩
      · rename_i b _ _
        have := Tame.execs ih k b { s with running := upd s.running p true, log := s.log ++ [.started p b] } h
        refine ⟨this.1, fun h' => this.2 ?_⟩
        dsimp only at h'
        generalize (Lazy.execs (Lazy.check k) k b _).2 = r at h'
        cases r <;> cases h'
        rfl

theorem attrsOk_init : AttrsOk init := fun _ => ⟨[], NamedList.Rep.empty⟩

end Lazy
end Rtti
