import Verif.Spec.CallLink
import Verif.Lemmas.CallMem
import Verif.Lemmas.CallVal
/-! The objects made for the arguments as `Arg.get` binds them. -/
set_option autoImplicit false
namespace Rtti.CallMem
open Val VMem

theorem bind_ok' {A B : Type} {x : Ret A} {f : A → Ret B} {b : B} (h : x.bind f = .ok b) : ∃ a, x = .ok a ∧ f a = .ok b := by
  cases x with
  | ok a => exact ⟨a, rfl, h⟩
  | _ => cases h

theorem bind_throw' {A B : Type} {x : Ret A} {f : A → Ret B} {e : Exc} (h : x.bind f = .throw e) :
    x = .throw e ∨ ∃ a, x = .ok a ∧ f a = .throw e := by
  cases x with
  | ok a => exact .inr ⟨a, rfl, h⟩
  | throw e' => cases h; exact .inl rfl
  | _ => cases h

theorem copyConstruct_copy {E : Env} {t : CType} {x a : Addr} (h : copyConstruct E t x = .ok (.copyOf a)) :
    Val.copyable t = true ∧ E.copyThrows t.fullDecay a = false := by
  unfold copyConstruct at h
  split at h
  · split at h
    · cases h
    · rename_i h1 h2
      cases h
      exact ⟨h1, by simpa using h2⟩
  · cases h

theorem to_copy {E : Env} {v : Vnt} {c : Bool} {t : CType} {a : Addr} (h : Val.to E v c t = .ok (.copyOf a)) :
    Val.copyable t = true ∧ E.copyThrows t.fullDecay a = false := by
  unfold Val.to at h
  generalize v.type _ = S at h
  unfold metafuncTo at h
  split at h
  · cases h
  obtain ⟨b, _, h⟩ := bind_ok' h
  split at h
  · exact copyConstruct_copy h
  obtain ⟨r, hr, h⟩ := bind_ok' h
  cases r with
  | some m =>
    simp only [Ret.ok.injEq] at h
    subst h
    split at hr
    · unfold toCast at hr
      split at hr
      · cases hr
      · split at hr
        · obtain ⟨p, _, hr⟩ := bind_ok' hr
          split at hr
          · cases hr
          · obtain ⟨m, hm, hr⟩ := bind_ok' hr
            cases hr
            exact copyConstruct_copy hm
        · cases hr
      · split at hr
        · obtain ⟨p, _, hr⟩ := bind_ok' hr
          split at hr <;> cases hr
        · cases hr
    · cases hr
  | none =>
    obtain ⟨r, hr, h⟩ := bind_ok' h
    cases r with
    | none => cases h
    | some m =>
      simp only [Ret.ok.injEq] at h
      subst h
      unfold convert at hr
      split at hr
      · cases hr
      · split at hr <;> cases hr

/-- what is bound to a temporary was returned by `to` -/
theorem get_made {E : Env} {N : Nest} {a : Arg} {p : RType} {m : Made}
    (h : a.get E N p = .ok (.dummy m) ∨ a.get E N p = .ok (.value m)) : ∃ v c, Val.to E v c p.t.decay = .ok m := by
  unfold Arg.get at h
  simp only at h
  split at h
  · rcases h with h | h <;> cases h
  split at h
  · split at h
    · rcases h with h | h <;> cases h
    rcases h with h | h <;> obtain ⟨v, _, h⟩ := bind_ok' h <;> obtain ⟨x, _, h⟩ := bind_ok' h <;> split at h
    · cases h
    · obtain ⟨m', hm, h⟩ := bind_ok' h; cases h; exact ⟨v, _, hm⟩
    · cases h
    · obtain ⟨m', hm, h⟩ := bind_ok' h; cases h
  · split at h
    · rcases h with h | h <;> obtain ⟨v, _, h⟩ := bind_ok' h <;> obtain ⟨x, _, h⟩ := bind_ok' h <;> split at h
      · cases h
      · obtain ⟨m', hm, h⟩ := bind_ok' h; cases h; exact ⟨v, _, hm⟩
      · cases h
      · obtain ⟨m', hm, h⟩ := bind_ok' h; cases h
    · split at h
      · rcases h with h | h <;> cases h
      rcases h with h | h <;> obtain ⟨v, _, h⟩ := bind_ok' h <;> obtain ⟨x, _, h⟩ := bind_ok' h <;> cases h
  · rcases h with h | h <;> obtain ⟨v, _, h⟩ := bind_ok' h <;> obtain ⟨m', hm, h⟩ := bind_ok' h <;> cases h
    exact ⟨v, _, hm⟩

theorem moveS_ok {P : Prog} {E : Env} {V : Codes} (g : Agree P E V) (t : CType) (v : Nat) : moveS P (V.code t) v = .ok v := by
  obtain ⟨r, hr⟩ := g.move t v
  simp [moveS, g.movable, hr, promised]

theorem toS_ok {P : Prog} {E : Env} {V : Codes} (g : Agree P E V) {t : CType} {v : Vnt} {c : Bool} {m : Made}
    (h : Val.to E v c t = .ok m) : toS P (V.code t) (V.src t m) = (.ok (V.made t m), []) := by
  have hf : fillS P (V.code t) (V.src t m) = (.ok (V.made t m), []) := by
    cases m with
    | copyOf a =>
      obtain ⟨h1, h2⟩ := to_copy h
      simp [fillS, Codes.src, Codes.made, copyS, g.copyable, h1, g.copy t a h1, h2, promised]
    | pointer p => rfl
    | converted fn a => rfl
  simp [toS, hf, moveS_ok g]

theorem refused_toS {P : Prog} {E : Env} {V : Codes} (v : Vnt) (c : Bool) (t : CType) :
    toS P (V.code t) (refused E V v c t) = (.threw, if Declined E v c t then [V.code t] else []) := by
  unfold refused Declined
  split
  · rename_i h; simp [h]; rfl
  · rename_i k h
    simp only [h]
    have hk : runConverter k.kind (k.call v.access) = (.returned false, true) ↔ k.kind = .functorOk ∧ k.call v.access = .returns false false := by
      cases k.kind <;> cases k.call v.access with
      | returns f ct => cases f <;> cases ct <;> simp [runConverter]
      | throws => simp [runConverter]
    by_cases hd : k.kind = .functorOk ∧ k.call v.access = .returns false false
    · rw [if_pos (hk.2 hd), if_pos (by simpa using hd)]; rfl
    · rw [if_neg fun h => hd (hk.1 h), if_neg (by simpa using hd)]; rfl

theorem param_threw {P : Prog} {E : Env} {N : Nest} {V : Codes} {a : Arg} {p : RType} {e : Exc} (ps : List RType) (as : List Arg)
    (h : a.get E N p = .throw e) :
    ∃ src, paramOf E N V a p = .value (V.code p.t.decay) src ∧ toS P (V.code p.t.decay) src = (.threw, lostUntil P E N V (p :: ps) (a :: as)) := by
  unfold paramOf lostUntil
  simp only [h]
  cases e with
  | badVariantConvert =>
    simp only
    cases a.resolve E N (decide (p.ref = .rref)) with
    | ok v => exact ⟨_, rfl, refused_toS v _ _⟩
    | _ => exact ⟨_, rfl, rfl⟩
  | _ => exact ⟨_, rfl, rfl⟩

theorem callS_linked {P : Prog} {E : Env} {V : Codes} (hoom : ∀ b, P.oom b = false) (N : Nest) (g : Agree P E V) (throws : List Nat → Bool) :
    ∀ (ps : List RType) (as : List Arg) (n : Nat) (vs : List Nat) (bs : List Bound), getAll E N ps as = .ok bs →
      callS P throws n vs (paramsOf E N V ps as) = (if throws (vs ++ valuesOf V ps bs) then .threw else .ok (), lostOf P V ps bs, 0) := by
  intro ps
  induction ps with
  | nil => intro as n vs bs h; cases h; simp [paramsOf, callS, valuesOf, lostOf]
  | cons p ps ih =>
    intro as n vs bs h
    cases as with
    | nil => cases h
    | cons a as =>
      obtain ⟨b, hb, h⟩ := bind_ok' h
      obtain ⟨bs', hbs, h⟩ := bind_ok' h
      cases h
      cases b with
      | object x =>
        simp only [paramsOf, paramOf, hb, callS, ih as _ vs bs' hbs, valuesOf, lostOf]
        rfl
      | value m =>
        obtain ⟨v, c, hm⟩ := get_made (.inr hb)
        simp only [paramsOf, paramOf, hb, callS, toS_ok g hm, ih as _ _ bs' hbs, valuesOf, lostOf, List.append_assoc, List.singleton_append, List.nil_append]
        rfl
      | dummy m =>
        obtain ⟨v, c, hm⟩ := get_made (.inl hb)
        simp only [paramsOf, paramOf, hb, callS, toS_ok g hm, hoom, Bool.false_eq_true, and_false, if_false, moveS_ok g, ih as _ _ bs' hbs, valuesOf, lostOf, List.append_assoc, List.singleton_append, List.nil_append]
        split <;> rfl

theorem callS_threw {P : Prog} {E : Env} {V : Codes} (hoom : ∀ b, P.oom b = false) (N : Nest) (g : Agree P E V) (throws : List Nat → Bool) (e : Exc) :
    ∀ (ps : List RType) (as : List Arg) (n : Nat) (vs : List Nat), getAll E N ps as = .throw e →
      callS P throws n vs (paramsOf E N V ps as) = (.threw, lostUntil P E N V ps as, 0) := by
  intro ps
  induction ps with
  | nil => intro as n vs h; cases h
  | cons p ps ih =>
    intro as n vs h
    cases as with
    | nil => cases h
    | cons a as =>
      rcases bind_throw' h with h | ⟨b, hb, h⟩
      · obtain ⟨src, h1, h2⟩ := param_threw (P := P) (V := V) ps as h
        simp only [paramsOf, h1, callS, h2, toUnit]
      · rcases bind_throw' h with h' | ⟨bs, _, h'⟩
        · cases b with
          | object x =>
            have hl : lostUntil P E N V (p :: ps) (a :: as) = lostUntil P E N V ps as := by rw [lostUntil, hb]
            rw [hl]
            simp only [paramsOf, paramOf, hb, callS, ih as _ vs h']
          | value m =>
            have hl : lostUntil P E N V (p :: ps) (a :: as) = lostUntil P E N V ps as := by rw [lostUntil, hb]
            rw [hl]
            obtain ⟨v, c, hm⟩ := get_made (.inr hb)
            simp only [paramsOf, paramOf, hb, callS, toS_ok g hm, ih as _ _ h', List.nil_append]
          | dummy m =>
            have hl : lostUntil P E N V (p :: ps) (a :: as) =
                (if (P.ty (V.code p.t.decay)).place = .small then [V.code p.t.decay] else []) ++ lostUntil P E N V ps as := by rw [lostUntil, hb]
            rw [hl]
            obtain ⟨v, c, hm⟩ := get_made (.inl hb)
            simp only [paramsOf, paramOf, hb, callS, toS_ok g hm, hoom, Bool.false_eq_true, and_false, if_false, moveS_ok g, ih as _ _ h', List.nil_append]
            split <;> simp
        · cases h'

theorem body_threw {P : Prog} {E : Env} {V : Codes} (N : Nest) (g : Agree P E V) (throws throws' : List Nat → Bool) (e : Exc) :
    ∀ (ps : List RType) (as : List Arg), getAll E N ps as = .throw e → ∀ i acc,
      body P throws i acc (paramsOf E N V ps as) = body P throws' i acc (paramsOf E N V ps as) := by
  intro ps
  induction ps with
  | nil => intro as h; cases h
  | cons p ps ih =>
    intro as h i acc
    cases as with
    | nil => cases h
    | cons a as =>
      rcases bind_throw' h with h | ⟨b, hb, h⟩
      · obtain ⟨src, h1, h2⟩ := param_threw (P := P) (V := V) ps as h
        funext s
        have := to_spec (g.array p.t.decay) src s.mem
        rw [h2] at this
        obtain ⟨m, hm, _⟩ := this
        simp only [paramsOf, h1, body, bindM, hm]
      · rcases bind_throw' h with h' | ⟨bs, _, h'⟩
        · cases b <;> simp only [paramsOf, paramOf, hb, body, ih as h']
        · cases h'

theorem params_le {E : Env} {N : Nest} {V : Codes} : ∀ (ps : List RType) (as : List Arg), (paramsOf E N V ps as).length ≤ ps.length := by
  intro ps
  induction ps with
  | nil => intro as; simp [paramsOf]
  | cons p ps ih =>
    intro as
    cases as with
    | nil => simp [paramsOf]
    | cons a as => simpa [paramsOf] using ih as

theorem params_fine {P : Prog} {E : Env} {V : Codes} (N : Nest) (g : Agree P E V) : ∀ (ps : List RType) (as : List Arg),
    ∀ q ∈ paramsOf E N V ps as, q.Fine P := by
  intro ps
  induction ps with
  | nil => intro as q h; cases h
  | cons p ps ih =>
    intro as q h
    cases as with
    | nil => cases h
    | cons a as =>
      rcases List.mem_cons.1 h with rfl | h
      · have f : (P.ty (V.code p.t.decay)).place ≠ .array ∧
            ((P.ty (V.code p.t.decay)).copyable = true ∨ (P.ty (V.code p.t.decay)).movable = true) := ⟨g.array _, .inr (g.movable _)⟩
        unfold paramOf
        simp only
        split
        · trivial
        · exact f
        · exact f
        · split <;> exact f
        · exact f
      · exact ih as q h

end Rtti.CallMem
