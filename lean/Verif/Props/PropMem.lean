import Verif.Spec.PropMem
import Verif.Props.CallLink
/-! C89: the temporary objects of writing a property. -/
set_option autoImplicit false
namespace Rtti.Props
open Rtti.CallMem Val VMem

private theorem new_fine {P : Prog} {E : Env} {V : Codes} (N : Nest) (g : Agree P E V) (t : CType) (a : Arg) : (newParam E N V t a).Fine P :=
  params_fine N g [⟨.none, t⟩] [a] _ (by simp [paramsOf, newParam])

private theorem new_made {E : Env} {N : Nest} {V : Codes} {t : CType} {a : Arg} {m : Made} (h : Val.newValue E N t a = .ok m) :
    a.get E N ⟨.none, t⟩ = .ok (.value m) ∧ newParam E N V t a = .value (V.code t.decay) (V.src t.decay m) := by
  unfold Val.newValue at h
  obtain ⟨b, hb, h⟩ := bind_ok' h
  cases b with
  | value m' => cases h; exact ⟨hb, by simp [newParam, paramOf, hb]⟩
  | _ => cases h

private theorem new_threw {E : Env} {N : Nest} {t : CType} {a : Arg} {e : Exc} (h : Val.newValue E N t a = .throw e) :
    a.get E N ⟨.none, t⟩ = .throw e := by
  unfold Val.newValue at h
  rcases bind_throw' h with h | ⟨b, _, h⟩
  · exact h
  · cases b <;> cases h

private theorem callS_new {P : Prog} {E : Env} {V : Codes} (g : Agree P E V) {N : Nest} {t : CType} {a : Arg} {m : Made}
    (h : Val.newValue E N t a = .ok m) (throws : List Nat → Bool) (n : Nat) (rest : List Param) :
    callS P throws n [] (newParam E N V t a :: rest) = callS P throws n [V.made t.decay m] rest := by
  obtain ⟨h1, h2⟩ := new_made (V := V) h
  obtain ⟨v, c, hm⟩ := get_made (.inr h1)
  simp only [h2, callS, toS_ok g hm, List.nil_append]

private theorem callS_new_threw {P : Prog} {E : Env} {V : Codes} {N : Nest} {t : CType} {a : Arg} {e : Exc}
    (h : Val.newValue E N t a = .throw e) (throws : List Nat → Bool) (n : Nat) (rest : List Param) :
    callS P throws n [] (newParam E N V t a :: rest) = (.threw, lostNew E N V t a, 0) := by
  have h' := new_threw h
  obtain ⟨src, h1, h2⟩ := param_threw (P := P) (V := V) [] [] h'
  have hl : lostUntil P E N V [⟨.none, t⟩] [a] = lostNew E N V t a := by
    unfold lostUntil lostNew
    simp only [h']
    cases e with
    | badVariantConvert =>
      have d1 : decide (Ref.none = Ref.rref) = false := rfl
      have d2 : decide (Ref.none ≠ Ref.rref) = true := rfl
      simp only [d1, d2]
      cases a.resolve E N false <;> rfl
    | _ => rfl
  simp only [newParam, h1, callS, h2, toUnit, hl]

private theorem body_new_threw {P : Prog} {E : Env} {V : Codes} (g : Agree P E V) {N : Nest} {t : CType} {a : Arg} {e : Exc}
    (h : Val.newValue E N t a = .throw e) (throws throws' : List Nat → Bool) (x : Nat) (rest : List Param) :
    call P throws x (newParam E N V t a :: rest) = call P throws' x (newParam E N V t a :: rest) := by
  have h' := new_threw h
  obtain ⟨src, h1, h2⟩ := param_threw (P := P) (V := V) [] [] h'
  have hb : body P throws x [] (newParam E N V t a :: rest) = body P throws' x [] (newParam E N V t a :: rest) := by
    funext s
    have := to_spec (g.array t.decay) src s.mem
    rw [h2] at this
    obtain ⟨m, hm, _⟩ := this
    simp only [newParam, h1, body, bindM, hm]
  funext s
  simp only [call, hb]

private theorem new_leaves {P : Prog} {E : Env} {V : Codes} (g : Agree P E V) {N : Nest} {t : CType} {a : Arg} {e : Exc}
    (h : Val.newValue E N t a = .throw e) (throws : List Nat → Bool) (rest : List Param) (hr : ∀ q ∈ rest, q.Fine P) {x : Nat} {s : State}
    (hs : ∀ k, x ≤ k → k < x + (rest.length + 1) → s.env (some k) = none) (hn : s.env none = none) :
    Leaves s (call P throws x (newParam E N V t a :: rest) s) .threw (lostNew E N V t a) :=
  leaves_call (fun q hq => by
    rcases List.mem_cons.1 hq with rfl | hq
    · exact new_fine N g _ a
    · exact hr q hq) (by simpa using hs) hn (callS_new_threw h _ _ _) nofun

private theorem wrong_leaves {P : Prog} {E : Env} {V : Codes} (g : Agree P E V) {N : Nest} {t : CType} {a : Arg} {e : Exc}
    (h : Val.newValue E N t a = .throw e) {x : Nat} {s : State}
    (hs : ∀ k, x ≤ k → k < x + 1 → s.env (some k) = none) (hn : s.env none = none) :
    Leaves s (wrongLeft P x (newParam E N V t a) s) .threw (lostNew E N V t a) := by
  have := new_leaves g h (fun _ => false) [] nofun (x := x) (s := s) (by simpa using hs) hn
  have e1 : wrongLeft P x (newParam E N V t a) s = call P (fun _ => false) x [newParam E N V t a] s := by
    unfold wrongLeft seq
    have h1 := this.1
    split
    · rename_i e2; rw [e2] at h1; cases h1
    · rfl
  rw [e1]
  exact this

private theorem obj_class {E : Env} {b : Base} {v : Vnt} (h1 : v.held ≠ none) (h2 : (describe (v.type .none)).isClass = true) :
    object E b false false v = (reference E v .ref (.base b ⟨false, false⟩)).bind fun a => .ok (some (.at a)) := by
  simp [object, h1, h2]

private theorem obj_ptr {E : Env} {b : Base} {c : Bool} {v : Vnt} (h1 : v.held ≠ none) (h2 : (describe (v.type .none)).isClass ≠ true)
    (h3 : (describe (v.type .none)).isClassPtr = true) :
    object E b false c v = (Val.to E v c (instancePtr b false)).bind fun m => if pointee E m = .at 0 then .ub else .ok (some (pointee E m)) := by
  simp [object, h1, h2, h3, instancePtr]

/-- A write that assigns: the object assigned to and the new value are those `set` finds (C49), the write ends as the assignment does, and nothing remains of
    it: every temporary is destroyed. -/
theorem C89_assigned (P : Prog) (E : Env) (N : Nest) (V : Codes) (g : Agree P E V) (throws : Spot → Nat → Bool)
    (throwsSet : Val.Obj → List Nat → Bool) (p : Property) (i : Option (Bool × Vnt)) (a : Arg) (o : Spot) (m : Made)
    (h : p.set E N i a = .ok (.assigned o m)) (t : CType) (ht : writes p = some t)
    (x : Nat) (s : State) (hs : ∀ k, x ≤ k → k ≤ x + 1 → s.env (some k) = none) (hn : s.env none = none) :
    Leaves s (setProp P E N V throws throwsSet p i a x s) (if throws o (V.made t.decay m) then .threw else .ok ()) [] := by
  have nt : (if throws o (V.made t.decay m) then Out.threw else .ok ()) ≠ Out.terminated := by split <;> nofun
  unfold Property.set at h
  unfold setProp
  cases i with
  | none =>
    cases p with
    | static u y =>
      cases ht
      simp only at h ⊢
      split at h
      · cases h
      · rename_i hc
        rw [if_neg hc]
        obtain ⟨m', hm, h⟩ := bind_ok' h
        cases h
        refine leaves_call (fun q hq => ?_) (fun k k1 k2 => hs k k1 (by simp at k2; omega)) hn ?_ nt
        · cases List.mem_singleton.1 hq; exact new_fine N g _ a
        · rw [callS_new g hm]; rfl
    | _ => cases h
  | some cv =>
    obtain ⟨isConst, v⟩ := cv
    cases p with
    | static u y => cases h
    | accessor b gt st => simp only at h; obtain ⟨_, _, h⟩ := bind_ok' h; cases h
    | field b u off =>
      cases ht
      simp only at h ⊢
      split at h
      · cases h
      rename_i hc
      rw [if_neg hc]
      split at h
      · cases h
      rename_i h1
      rw [if_neg h1]
      split at h
      · rename_i h2
        rw [if_pos h2]
        split at h
        · cases h
        rename_i h3
        rw [if_neg h3]
        simp only [Bool.not_eq_true] at h3
        subst h3
        obtain ⟨m', hm, h⟩ := bind_ok' h
        rw [obj_class h1 h2] at h
        obtain ⟨o', ho, h⟩ := bind_ok' h
        obtain ⟨r, hr, ho⟩ := bind_ok' ho
        cases ho
        cases h
        simp only [hr]
        refine leaves_call (fun q hq => ?_) (fun k k1 k2 => hs k k1 (by simp at k2; omega)) hn ?_ nt
        · cases List.mem_singleton.1 hq; exact new_fine N g _ a
        · rw [callS_new g hm]; rfl
      · rename_i h2
        rw [if_neg h2]
        split at h
        · rename_i h3
          rw [if_pos h3]
          obtain ⟨m', hm, h⟩ := bind_ok' h
          rw [obj_ptr h1 h2 h3] at h
          obtain ⟨o', ho, h⟩ := bind_ok' h
          obtain ⟨r, hr, ho⟩ := bind_ok' ho
          split at ho
          · cases ho
          rename_i h4
          cases ho
          cases h
          simp only [hr, if_neg h4]
          refine leaves_call (fun q hq => ?_) (fun k k1 k2 => hs k k1 (by simp at k2; omega)) hn ?_ nt
          · simp only [List.mem_cons, List.not_mem_nil, or_false] at hq
            rcases hq with rfl | rfl
            · exact new_fine N g _ a
            · exact ⟨g.array _, .inr (g.movable _)⟩
          · rw [callS_new g hm]
            simp only [callS, toS_ok g hr]
            rfl
        · cases h

/-- A write through a setter that is called: as for any call of a member function. -/
theorem C89_setter (P : Prog) (hoom : ∀ b, P.oom b = false) (E : Env) (N : Nest) (V : Codes) (g : Agree P E V) (throws : Spot → Nat → Bool)
    (throwsSet : Val.Obj → List Nat → Bool) (p : Property) (i : Option (Bool × Vnt)) (a : Arg) (o : Val.Obj) (bs : List Bound)
    (h : p.set E N i a = .ok (.called (.called (some o) bs))) (b : Base) (get set : Fn) (hp : p = .accessor b get set)
    (x : Nat) (s : State) (hs : ∀ k, x ≤ k → k ≤ x + set.params.length → s.env (some k) = none) (hn : s.env none = none) :
    Leaves s (setProp P E N V throws throwsSet p i a x s) (if throwsSet o (valuesOf V set.params bs) then .threw else .ok ()) (lostOf P V set.params bs) := by
  subst hp
  cases i with
  | none => cases h
  | some cv =>
    obtain ⟨isConst, v⟩ := cv
    simp only [Property.set] at h
    obtain ⟨d, hd, h⟩ := bind_ok' h
    cases h
    exact C81_member_reached P hoom E N V g throwsSet set b isConst v [a] o bs hd x s hs hn

/-- A write that does nothing: nothing at all changes. -/
theorem C89_nothing (P : Prog) (E : Env) (N : Nest) (V : Codes) (throws : Spot → Nat → Bool)
    (throwsSet : Val.Obj → List Nat → Bool) (p : Property) (i : Option (Bool × Vnt)) (a : Arg)
    (h : p.set E N i a = .ok .nothing ∨ p.set E N i a = .ok (.called .nothing)) (x : Nat) (s : State) :
    setProp P E N V throws throwsSet p i a x s = (.ok (), s) := by
  unfold Property.set at h
  unfold setProp
  cases i with
  | none =>
    cases p with
    | static u y =>
      simp only at h
      split at h
      · rcases h with h | h <;> cases h
      · rcases h with h | h <;> obtain ⟨m', hm, h⟩ := bind_ok' h <;> cases h
    | _ => rcases h with h | h <;> cases h
  | some cv =>
    obtain ⟨isConst, v⟩ := cv
    cases p with
    | static u y => rcases h with h | h <;> cases h
    | accessor b gt st =>
      simp only at h
      rcases h with h | h <;> obtain ⟨d, hd, h⟩ := bind_ok' h <;> cases h
      exact C81_member_nothing P E N V throwsSet st b isConst v [a] hd x s
    | field b u off =>
      simp only at h ⊢
      split at h
      · rcases h with h | h <;> cases h
      rename_i hc
      rw [if_neg hc]
      split at h
      · rename_i h1; rw [if_pos h1]
      rename_i h1
      rw [if_neg h1]
      split at h
      · rename_i h2
        split at h
        · rcases h with h | h <;> cases h
        rename_i h3
        simp only [Bool.not_eq_true] at h3
        subst h3
        rw [obj_class h1 h2] at h
        rcases h with h | h <;> obtain ⟨m', hm, h⟩ := bind_ok' h <;> obtain ⟨o', ho, h⟩ := bind_ok' h <;> obtain ⟨r, hr, ho⟩ := bind_ok' ho <;>
          cases ho <;> cases h
      · rename_i h2
        rw [if_neg h2]
        split at h
        · rename_i h3
          rw [obj_ptr h1 h2 h3] at h
          rcases h with h | h <;> obtain ⟨m', hm, h⟩ := bind_ok' h <;> obtain ⟨o', ho, h⟩ := bind_ok' h <;> obtain ⟨r, hr, ho⟩ := bind_ok' ho <;>
            split at ho <;> cases ho <;> cases h
        · rename_i h3; rw [if_neg h3]

/-- A write that is refused throws and neither assigns nor calls the setter: it is the same whatever they do. Exactly these objects are lost. -/
theorem C89_refused (P : Prog) (hoom : ∀ b, P.oom b = false) (E : Env) (N : Nest) (V : Codes) (g : Agree P E V) (throws : Spot → Nat → Bool)
    (throwsSet : Val.Obj → List Nat → Bool) (p : Property) (i : Option (Bool × Vnt)) (a : Arg) (e : Exc)
    (h : p.set E N i a = .throw e) (x : Nat) (s : State)
    (hs : ∀ k, x ≤ k → (k ≤ x + 1 ∨ ∃ b gt st, p = .accessor b gt st ∧ k ≤ x + st.params.length) → s.env (some k) = none) (hn : s.env none = none) :
    (∀ throws' throwsSet', setProp P E N V throws' throwsSet' p i a x s = setProp P E N V throws throwsSet p i a x s) ∧
    Leaves s (setProp P E N V throws throwsSet p i a x s) .threw (lostWrite P E N V p i a) := by
  unfold Property.set at h
  unfold setProp lostWrite
  cases i with
  | none =>
    cases p with
    | static u y =>
      simp only at h ⊢
      split at h
      · rename_i hc
        simp only [if_pos hc]
        exact ⟨fun _ _ => trivial, .none s _⟩
      · rename_i hc
        simp only [if_neg hc]
        rcases bind_throw' h with h | ⟨m, hm, h⟩
        · refine ⟨fun _ _ => congrFun (body_new_threw g h _ _ x []) s, leaves_call (fun q hq => ?_) (fun k k1 k2 => hs k k1 (by simp at k2; omega)) hn ?_ nofun⟩
          · cases List.mem_singleton.1 hq; exact new_fine N g _ a
          · exact callS_new_threw h _ _ []
        · cases h
    | _ => exact ⟨fun _ _ => rfl, .none s _⟩
  | some cv =>
    obtain ⟨isConst, v⟩ := cv
    cases p with
    | static u y => exact ⟨fun _ _ => rfl, .none s _⟩
    | accessor b gt st =>
      simp only at h ⊢
      rcases bind_throw' h with h | ⟨d, _, h⟩
      · have := C81_member_refused P hoom E N V g throwsSet st b isConst v [a] e h x s (fun k k1 k2 => hs k k1 (.inr ⟨b, gt, st, rfl, k2⟩)) hn
        exact ⟨fun _ t => this.1 t, this.2⟩
      · cases h
    | field b u off =>
      simp only at h ⊢
      split at h
      · rename_i hc
        simp only [hc, Bool.true_or, if_true]
        exact ⟨fun _ _ => trivial, .none s _⟩
      rename_i hc
      simp only [if_neg hc]
      split at h
      · cases h
      rename_i h1
      have hh : (u.isConst || v.held.isNone) = false := by
        cases hv : v.held with
        | none => exact absurd hv h1
        | some _ => simpa using hc
      simp only [if_neg h1, hh, Bool.false_eq_true, if_false]
      split at h
      · rename_i h2
        simp only [if_pos h2]
        split at h
        · rename_i h3
          simp only [if_pos h3]
          exact ⟨fun _ _ => trivial, .none s _⟩
        rename_i h3
        simp only [if_neg h3]
        simp only [Bool.not_eq_true] at h3
        subst h3
        have room : ∀ k, x ≤ k → k < x + 1 → s.env (some k) = none := fun k k1 k2 => hs k k1 (by omega)
        rcases bind_throw' h with h | ⟨m, hm, h⟩
        · cases hr : reference E v .ref (.base b ⟨false, false⟩) with
          | ok o => exact ⟨fun _ _ => congrFun (body_new_threw g h _ _ x []) s, new_leaves g h _ [] nofun room hn⟩
          | throw e' => exact ⟨fun _ _ => rfl, new_leaves g h _ [] nofun room hn⟩
          | _ => exact ⟨fun _ _ => rfl, wrong_leaves g h room hn⟩
        · rw [obj_class h1 h2] at h
          rcases bind_throw' h with h | ⟨o, _, h⟩
          · rcases bind_throw' h with h | ⟨o, _, h⟩
            · simp only [h]
              refine ⟨fun _ _ => trivial, leaves_call (fun q hq => ?_) room hn ?_ nofun⟩
              · cases List.mem_singleton.1 hq; exact new_fine N g _ a
              · rw [callS_new g hm]
                have hl : lostNew E N V u a = [] := by
                  unfold lostNew
                  rw [(new_made (V := V) hm).1]
                rw [hl]; rfl
            · cases h
          · cases o <;> cases h
      · rename_i h2
        simp only [if_neg h2]
        split at h
        · rename_i h3
          simp only [if_pos h3]
          have room : ∀ k, x ≤ k → k < x + (1 + 1) → s.env (some k) = none := fun k k1 k2 => hs k k1 (by omega)
          have room' : ∀ k, x ≤ k → k < x + 1 → s.env (some k) = none := fun k k1 k2 => hs k k1 (by omega)
          have fine : ∀ src, ∀ q ∈ [Param.value (V.code (instancePtr b false)) src], q.Fine P := fun src q hq => by
            cases List.mem_singleton.1 hq; exact ⟨g.array _, .inr (g.movable _)⟩
          rcases bind_throw' h with h | ⟨m, hm, h⟩
          · simp only [new_threw h, List.append_nil]
            cases hr : Val.to E v isConst (instancePtr b false) with
            | ok m =>
              simp only
              split
              · exact ⟨fun _ _ => rfl, wrong_leaves g h room' hn⟩
              · exact ⟨fun _ _ => congrFun (body_new_threw g h _ _ x _) s, new_leaves g h _ _ (fine _) room hn⟩
            | throw e' => cases e' <;> exact ⟨fun _ _ => rfl, new_leaves g h _ _ (fine _) room hn⟩
            | _ => exact ⟨fun _ _ => rfl, wrong_leaves g h room' hn⟩
          · have hl : lostNew E N V u a = [] := by
              unfold lostNew
              rw [(new_made (V := V) hm).1]
            have fine' : ∀ src, ∀ q ∈ [newParam E N V u a, Param.value (V.code (instancePtr b false)) src], q.Fine P := fun src q hq => by
              rcases List.mem_cons.1 hq with rfl | hq
              · exact new_fine N g _ a
              · exact fine _ q hq
            rw [obj_ptr h1 h2 h3] at h
            rw [hl, (new_made (V := V) hm).1, obj_ptr h1 h2 h3]
            rcases bind_throw' h with h | ⟨o, _, h⟩
            · rcases bind_throw' h with h | ⟨o, _, h⟩
              · rw [h]
                cases e with
                | badVariantConvert =>
                  refine ⟨fun _ _ => rfl, leaves_call (fine' _) room hn ?_ nofun⟩
                  rw [callS_new g hm]
                  simp only [callS, refused_toS, toUnit, lostInstance, h3, Bool.true_and, Ret.bind, List.nil_append]
                  rfl
                | _ =>
                  refine ⟨fun _ _ => rfl, leaves_call (fine' _) room hn ?_ nofun⟩
                  rw [callS_new g hm]
                  rfl
              · split at h <;> cases h
            · cases o <;> cases h
        · cases h

/-- Nothing is lost by writing to an object, whatever throws, if no converter with a flag returns a value and leaves the flag unset. (Missing: setters, which
    lose what calls lose, C81.) -/
theorem C89_no_leak_partial (P : Prog) (hoom : ∀ b, P.oom b = false) (E : Env) (N : Nest) (V : Codes) (g : Agree P E V) (throws : Spot → Nat → Bool)
    (throwsSet : Val.Obj → List Nat → Bool) (p : Property) (t : CType) (ht : writes p = some t) (i : Option (Bool × Vnt)) (a : Arg)
    (h : (∃ w, p.set E N i a = .ok w) ∨ ∃ e, p.set E N i a = .throw e) (hd : ∀ v c u, Declined E v c u = false)
    (x : Nat) (s : State) (hs : ∀ k, x ≤ k → k ≤ x + 1 → s.env (some k) = none) (hn : s.env none = none) :
    ∃ o, Leaves s (setProp P E N V throws throwsSet p i a x s) o [] := by
  rcases h with ⟨w, h⟩ | ⟨e, h⟩
  · cases w with
    | nothing => rw [C89_nothing P E N V throws throwsSet p i a (.inl h)]; exact ⟨_, .none s _⟩
    | assigned o m => exact ⟨_, C89_assigned P E N V g throws throwsSet p i a o m h t ht x s hs hn⟩
    | called d =>
      exfalso
      unfold Property.set at h
      cases i with
      | none =>
        cases p with
        | static u y =>
          simp only at h
          split at h
          · cases h
          · obtain ⟨_, _, h⟩ := bind_ok' h; cases h
        | _ => cases h
      | some cv =>
        cases p with
        | static u y => cases h
        | accessor _ _ _ => cases ht
        | field b u off =>
          simp only at h
          repeat' split at h
          all_goals first
            | cases h
            | (obtain ⟨_, _, h⟩ := bind_ok' h
               obtain ⟨o, _, h⟩ := bind_ok' h
               cases o <;> cases h)
  · have hl : lostWrite P E N V p i a = [] := by
      have h1 : ∀ t, lostNew E N V t a = [] := fun t => by
        unfold lostNew
        split
        · simp [hd]
        · rfl
      have h2 : ∀ b m c v, lostInstance E V b m c v = [] := fun b m c v => by simp [lostInstance, hd]
      unfold lostWrite
      split
      · simp [h1]
      · simp only [h1, h2]
        repeat' split
        all_goals rfl
      · cases ht
      · rfl
    have := (C89_refused P hoom E N V g throws throwsSet p i a e h x s (fun k k1 k2 => by
      rcases k2 with k2 | ⟨b, gt, st, rfl, _⟩
      · exact hs k k1 k2
      · cases ht) hn).2
    rw [hl] at this
    exact ⟨_, this⟩

/-! a static object of class `B`, a member of class `B` in `D`, one with a setter -/
namespace ExL
open ExV ExI

def stat : Property := .static (cls B) 3000
def memb : Property := .field B (cls B) 8
def accs : Property := .accessor B ⟨some B, true, [], some ⟨.none, cls B⟩⟩ mC

example : stat.set envC nest none (intAt 710) = .ok (.assigned ⟨.at 3000, 0⟩ (.converted 4 710)) ∧
    memb.set envC nest (some (false, vPD)) (intAt 710) = .ok (.assigned ⟨.at 5000, 8⟩ (.converted 4 710)) ∧
    memb.set envC nest (some (false, vD)) (intAt 710) = .ok (.assigned ⟨.at 5000, 8⟩ (.converted 4 710)) ∧
    memb.set envC nest (some (true, vD)) (intAt 710) = .throw .badVariantCast ∧
    memb.set envC nest (some (false, vPD)) (intAt 720) = .throw .badVariantConvert ∧
    accs.set envC nest (some (false, vPD)) (intAt 710) = .ok (.called (.called (some (.at 5000)) [.dummy (.converted 4 710)])) := by decide +kernel
-- through memory: the assignment throws for that object and value, and all is destroyed; the setter loses an object
example : let r := setProp progC envC nest codes (fun o v => o == ⟨.at 5000, 8⟩ && v == 4970) (fun _ _ => false) memb (some (false, vPD)) (intAt 710) 0 VMem.init
    r.1 = .threw ∧ ctors (fun _ => true) r.2.mem.log = 4 ∧ dtors (fun _ => true) r.2.mem.log = 4 := by decide +kernel
example : let r := setProp progC envC nest codes (fun _ _ => true) (fun _ _ => false) accs (some (false, vPD)) (intAt 710) 0 VMem.init
    r.1 = .ok () ∧ ctors (fun _ => true) r.2.mem.log = dtors (fun _ => true) r.2.mem.log + 1 := by decide +kernel
example : lostWrite progC envC nest codes memb (some (false, vPD)) (intAt 720) = [0] := by decide +kernel
end ExL

/-- A write that is refused because a converter declined loses the object the converter made. -/
theorem C89_false : ∃ (P : Prog) (E : Env) (N : Nest) (V : Codes) (p : Property) (a : Arg), Agree P E V ∧ (∀ b, P.oom b = false) ∧
    p.set E N none a = .throw .badVariantConvert ∧ ∀ throws throwsSet,
    let r := setProp P E N V throws throwsSet p none a 0 VMem.init
    r.1 = .threw ∧ ctors (fun _ => true) r.2.mem.log = dtors (fun _ => true) r.2.mem.log + 1 := by
  refine ⟨ExL.progC, ExL.envC, ExI.nest, ExL.codes, ExL.stat, ExL.intAt 720, ExL.agreeC, fun _ => rfl, by decide +kernel, fun throws throwsSet => ?_⟩
  have h := (C89_refused ExL.progC (fun _ => rfl) ExL.envC ExI.nest ExL.codes ExL.agreeC (fun _ _ => false) (fun _ _ => false) ExL.stat none (ExL.intAt 720)
    .badVariantConvert (by decide +kernel) 0 VMem.init (fun _ _ _ => rfl) rfl).1 throws throwsSet
  rw [h]
  decide +kernel

end Rtti.Props
