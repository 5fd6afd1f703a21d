import Verif.Lemmas.LazyLife
set_option autoImplicit false
namespace Rtti.Lazy
open LM Spec

/-! ### kinds of objects do not change -/

def KindsOk (s : LW) : Prop := ∀ p k, s.w.kind p = some k → p < s.w.next

def Kinds (s s' : LW) : Prop := KindsOk s → KindsOk s' ∧ ∀ p k, s.w.kind p = some k → s'.w.kind p = some k

theorem kinds_look : QLook Kinds where
  refl _ h := ⟨h, fun _ _ h => h⟩
  trans h h' i := ⟨(h' (h i).1).1, fun p k e => (h' (h i).1).2 p k ((h i).2 p k e)⟩
  iter h := h

theorem kinds_tryCreate (o : Nat) (k : Cat) (n : Str) (t : Nat) :
    (io Kinds kinds_look).K (change (tryCreate o k n t)) (change (tryCreate o k n t)) := by
  intro s h
  unfold change tryCreate
  dsimp only
  split <;> (simp only [KindsOk, World.addItem, World.alloc, World.free, upd]; refine ⟨?_, ?_⟩ <;> intro p k' e)
  · split at e
    · omega
    · have := h p k' e; omega
  · have := h p k' e
    rw [if_neg (by omega)]; exact e
  · split at e
    · simp at e
    · have := h p k' (by simpa using e); omega
  · have := h p k' e
    rw [if_neg (by omega), if_neg (by omega)]; exact e

theorem kinds_of_eq {A : Type} {f : World → World × Res A} (h : ∀ w, (f w).1.kind = w.kind ∧ (f w).1.next = w.next) :
    (io Kinds kinds_look).K (change f) (change f) := by
  intro s i
  unfold change
  refine ⟨fun p k e => ?_, fun p k e => ?_⟩
  · dsimp only at e ⊢; rw [(h s.w).1] at e; rw [(h s.w).2]; exact i p k e
  · dsimp only; rw [(h s.w).1]; exact e

theorem kinds_tryCreateClass (o : Nat) (n : Str) (t : Nat) :
    (io Kinds kinds_look).K (change (tryCreateClass o n t)) (change (tryCreateClass o n t)) := by
  intro s h
  have hk := kinds_tryCreate o .cls n t s h
  unfold change at hk ⊢
  unfold tryCreateClass
  split
  · exact kinds_look.refl s h
  · split
    · exact kinds_look.refl s h
    · split
      · rename_i w1 p e
        rw [e] at hk
        exact hk
      · exact hk

theorem addBaseClass_frame (w : World) (p t : Nat) (c : Caster) :
    (w.addBaseClass p t c).1.kind = w.kind ∧ (w.addBaseClass p t c).1.next = w.next ∧
    (w.addBaseClass p t c).1.cont = w.cont ∧ (w.addBaseClass p t c).1.valid = w.valid ∧
    (w.addBaseClass p t c).1.metaClass = w.metaClass ∧
    (∀ a, a ≠ p → ((w.addBaseClass p t c).1.cls a).bases = (w.cls a).bases) := by
  unfold World.addBaseClass
  split
  · simp
  · split
    · simp
    · rename_i base _
      simp only [World.addDerivedClass]
      have h1 : ∀ a, a ≠ p → (upd w.cls p { w.cls p with bases := World.basesAdd (w.cls p).bases t c } a).bases
          = (w.cls a).bases := by
        intro a ha; simp [upd, ha]
      split
      · exact ⟨rfl, rfl, rfl, rfl, rfl, h1⟩
      · split
        · exact ⟨rfl, rfl, rfl, rfl, rfl, h1⟩
        · refine ⟨rfl, rfl, rfl, rfl, rfl, fun a ha => ?_⟩
          dsimp only
          by_cases e : a = base
          · subst e; rw [upd_same]; exact h1 _ ha
          · rw [upd_ne _ _ e]; exact h1 _ ha

theorem step_addBase (w : World) (p t : Nat) (c : Caster) :
    (w.step (.addBase p t c)).1 = w ∨ (w.step (.addBase p t c)).1 = (w.addBaseClass p t c).1 := by
  simp only [World.step]
  split
  · right
    cases e : w.addBaseClass p t c with
    | mk w' r => cases r <;> rfl
  · left; rfl

theorem kinds_addBase (p t : Nat) (c : Caster) (w : World) :
    (w.step (.addBase p t c)).1.kind = w.kind ∧ (w.step (.addBase p t c)).1.next = w.next := by
  rcases step_addBase w p t c with h | h <;> rw [h]
  · exact ⟨rfl, rfl⟩
  · exact ⟨(addBaseClass_frame w p t c).1, (addBaseClass_frame w p t c).2.1⟩

theorem kinds_op {chk : Nat → LM Unit} (hc : ∀ p, (io Kinds kinds_look).K (chk p) (chk p)) (fuel : Nat) (o : World.Op) :
    (io Kinds kinds_look).K (Lazy.op chk fuel o) (Lazy.op chk fuel o) := by
  refine (io Kinds kinds_look).op hc (.inl rfl) o (fun t _ => kinds_of_eq fun w => ?_) (fun _ _ _ _ _ => kinds_tryCreate _ _ _ _)
    (fun _ _ _ _ => kinds_tryCreateClass _ _ _) ?_
  · simp only [World.step]; split <;> exact ⟨rfl, rfl⟩
  · rintro p t c rfl s
    unfold Lazy.op
    dsimp only
    split
    · exact kinds_look.refl s
    · exact kinds_of_eq (fun w => kinds_addBase p t c w) s

theorem kinds_execs {chk : Nat → LM Unit} (hc : ∀ p, (io Kinds kinds_look).K (chk p) (chk p)) (fuel : Nat) (cs : List Cmd) :
    (io Kinds kinds_look).K (execs chk fuel cs) (execs chk fuel cs) := by
  refine (io Kinds kinds_look).execs (P := fun _ => True)
    ((io Kinds kinds_look).leaf hc (.inl rfl) (fun o _ => kinds_op hc fuel o) (fun p n v _ => ?_) (fun p b _ => ?_))
    cs (Cmds.all_true cs)
  · intro s; unfold setAttr; split <;> exact fun h => ⟨h, fun _ _ h => h⟩
  · intro s
    unfold install
    split
    · exact kinds_look.refl s
    · split <;> exact fun h => ⟨h, fun _ _ h => h⟩

theorem kinds_check (fuel p : Nat) : (io Kinds kinds_look).K (check fuel p) (check fuel p) := by
  induction fuel generalizing p with
  | zero => exact fun s => kinds_look.refl s
  | succ fuel ih =>
    intro s
    cases hp : s.pending p with
    | none => rw [check_idle (.inl hp)]; exact kinds_look.refl s
    | some body =>
      cases hr : s.running p with
      | true => rw [check_idle (.inr hr)]; exact kinds_look.refl s
      | false =>
        rw [check_run hp hr]
        exact kinds_execs ih fuel body (begin_ s p body)

theorem kinds_run (fuel : Nat) (cs : List Cmd) (s : LW) : Kinds s (run fuel cs s).1 :=
  kinds_execs (kinds_check fuel) fuel cs s

theorem kindsOk_init : KindsOk init := by
  intro p k h
  simp only [init, World.init] at h ⊢
  split at h
  · omega
  · simp at h

/-! ### a query about a container is a check followed by the query -/

theorem bind_val {A B : Type} {m : LM A} {f : A → LM B} {s s' : LW} {a : A} (h : m s = (s', .val a)) : m.bind f s = f a s' := by
  simp only [LM.bind, h]

theorem bind_throw {A B : Type} {m : LM A} {f : A → LM B} {s s' : LW} {e : Err} (h : m s = (s', .throw e)) :
    m.bind f s = (s', .throw e) := by
  simp only [LM.bind, h]

/-- the query starts with a check of `c` (after reading only what kind of object `c` is) -/
theorem query_shape (chk : Nat → LM Unit) (fuel c : Nat) {k : Cat} (hk : k = .cls ∨ k = .nmspace) (q : Query) (ha : Asks c k q) :
    ∃ f : LM Ans, ∀ s : LW, s.w.kind c = some k → query chk (fuel + 1) q s = ((chk c).bind fun _ => f) s := by
  have hb : ∀ {A B : Type} {m f : LM A} {h : A → LM B} {s : LW}, m s = ((chk c).bind fun _ => f) s →
      (m.bind h) s = ((chk c).bind fun _ => f.bind h) s := by
    intro A B m f h s e
    have : (m.bind h) s = (((chk c).bind fun _ => f).bind h) s := by unfold LM.bind; unfold LM.bind at e; rw [e]
    rw [this]
    unfold LM.bind
    cases e : chk c s with
    | mk s' r => cases r <;> rfl
  have hread : ∀ {A B : Type} (g : World → Res A) (h : A → LM B) (s : LW) (a : A), g s.w = .val a →
      ((LM.read g).bind h) s = h a s := by
    intro A B g h s a e
    simp only [LM.bind, LM.read, e]
  cases q with
  | item p k' n => cases ha; exact ⟨_, fun s _ => hb rfl⟩
  | itemAt p k' i => cases ha; exact ⟨_, fun s _ => rfl⟩
  | count p k' => cases ha; exact ⟨_, fun s _ => rfl⟩
  | constructor p n => cases ha; exact ⟨_, fun s _ => hb rfl⟩
  | attr p n => cases ha; exact ⟨_, fun s _ => rfl⟩
  | baseCount p => cases ha; exact ⟨_, fun s _ => rfl⟩
  | derivedCount p => cases ha; exact ⟨_, fun s _ => rfl⟩
  | method p n =>
    obtain ⟨rfl, hn⟩ := ha
    rcases hk with rfl | rfl
    · refine ⟨_, fun s hs => hb (f := (LM.read fun w => w.ownMethod p n).bind fun r =>
        match r with
        | some p => LM.pure (some p)
        | none => withBases p (firstBase fun p => classMethod chk fuel p n)) ?_⟩
      unfold getMethod
      rw [if_neg hn, hread _ _ s (some .cls) (by rw [hs])]
      dsimp only
      exact congrFun (if_neg hn) s
    · refine ⟨_, fun s hs => hb (f := LM.read fun w => w.ownMethod p n) ?_⟩
      unfold getMethod
      rw [if_neg hn, hread _ _ s (some .nmspace) (by rw [hs])]
  | property p n =>
    obtain ⟨rfl, hn⟩ := ha
    rcases hk with rfl | rfl
    · refine ⟨_, fun s hs => hb (f := (LM.read fun w => .val (w.ownProperty p n)).bind fun r =>
        match r with
        | some p => LM.pure (some p)
        | none => withBases p (firstBase fun p => classProperty chk fuel p n)) ?_⟩
      unfold getProperty
      rw [hread _ _ s (some .cls) (by rw [hs])]
      dsimp only
      exact congrFun (if_neg hn) s
    · refine ⟨_, fun s hs => hb (f := LM.read fun w => .val (w.ownProperty p n)) ?_⟩
      unfold getProperty
      rw [hread _ _ s (some .nmspace) (by rw [hs])]
  | inherited p b =>
    obtain ⟨rfl, rfl, hb1, hb2⟩ := ha
    obtain ⟨b, rfl⟩ := Option.ne_none_iff_exists'.mp hb1
    refine ⟨(withBases p (anyBase fun p => inheritedFrom chk fuel p (some b))).bind fun r => LM.pure (.bool r), fun s hs => ?_⟩
    refine (hread (fun w => if decide (w.kind p = some .cls) then .val () else .ub) (fun _ => (inheritedFrom chk (fuel + 1) p (some b)).bind fun r => LM.pure (Ans.bool r)) s () (by simp [hs])).trans (hb ?_)
    exact congrFun (if_neg (fun e => hb2 (by rw [e]))) s
  | cast p b a =>
    obtain ⟨rfl, rfl, hb1, hb2⟩ := ha
    obtain ⟨b, rfl⟩ := Option.ne_none_iff_exists'.mp hb1
    refine ⟨((withBases p (castBase (fun p => inheritedFrom chk fuel p (some b)) (fun p x => Lazy.cast chk fuel p (some b) x) a)).bind
      fun r => LM.pure (r.getD 0)).bind fun r => LM.pure (.num r), fun s hs => ?_⟩
    refine (hread (fun w => if decide (w.kind p = some .cls) then .val () else .ub) (fun _ => (Lazy.cast chk (fuel + 1) p (some b) a).bind fun r => LM.pure (Ans.num r)) s () (by simp [hs])).trans (hb ?_)
    exact congrFun (if_neg (fun e => hb2 (by rw [e]))) s

/-- asking about `c` when something is pending: the callback runs, then the query is answered as asked afterwards -/
theorem query_check {fuel c : Nat} {k : Cat} (hk : k = .cls ∨ k = .nmspace) {q : Query} (ha : Asks c k q) {s : LW}
    (hs : s.w.kind c = some k) (hok : KindsOk s) (hr : s.running c = false) :
    query (check (fuel + 1)) (fuel + 1) q s =
      match check (fuel + 1) c s with
      | (s', .val _) => query (check (fuel + 1)) (fuel + 1) q s'
      | (s', .throw e) => (s', .throw e)
      | (s', .ub) => (s', .ub)
      | (s', .diverge) => (s', .diverge) := by
  obtain ⟨f, hf⟩ := query_shape (check (fuel + 1)) fuel c hk q ha
  rw [hf s hs]
  have h1 := (kinds_check (fuel + 1) c s hok).2 c k hs
  have h2 : (check (fuel + 1) c s).1.pending c = none := check_done hr
  unfold LM.bind
  cases e : check (fuel + 1) c s with
  | mk s' r =>
    rw [e] at h1 h2
    cases r with
    | val u =>
      dsimp only
      rw [hf s' h1]
      unfold LM.bind
      rw [check_idle (.inl h2)]
    | throw _ => rfl
    | ub => rfl
    | diverge => rfl

/-! ### states that differ in the record only -/

theorem sameBut_look : SLook SameBut where
  w h := h.1
  attrs h := h.2.1
  iters h := h.2.2.2.2
  iter _ h := ⟨h.1, h.2.1, h.2.2.1, h.2.2.2.1, rfl⟩

theorem SameBut.refl (s : LW) : SameBut s s := ⟨rfl, rfl, rfl, rfl, rfl⟩
theorem SameBut.trans {a b c : LW} (h : SameBut a b) (h' : SameBut b c) : SameBut a c :=
  ⟨h.1.trans h'.1, h.2.1.trans h'.2.1, h.2.2.1.trans h'.2.2.1, h.2.2.2.1.trans h'.2.2.2.1, h.2.2.2.2.trans h'.2.2.2.2⟩
theorem SameBut.symm {a b : LW} (h : SameBut a b) : SameBut b a :=
  ⟨h.1.symm, h.2.1.symm, h.2.2.1.symm, h.2.2.2.1.symm, h.2.2.2.2.symm⟩

/-- a relation between states that changes of the world and of attributes keep -/
structure SStep (S : LW → LW → Prop) : Prop extends SLook S where
  change : ∀ {s t} (w : World), S s t → S { s with w := w } { t with w := w }
  setAttrs : ∀ {s t} (a : Nat → NamedList Nat), S s t → S { s with attrs := a } { t with attrs := a }

theorem sim_change {S : LW → LW → Prop} (h : SStep S) {A : Type} (f : World → World × Res A) :
    (sim S h.toSLook).K (change f) (change f) := by
  intro s t hs
  unfold LM.change
  rw [← h.w hs]
  exact ⟨h.change _ hs, rfl⟩

theorem sim_op {S : LW → LW → Prop} (h : SStep S) {chk : Nat → LM Unit} (hc : ∀ p, (sim S h.toSLook).K (chk p) (chk p))
    (fuel : Nat) (o : World.Op) : (sim S h.toSLook).K (Lazy.op chk fuel o) (Lazy.op chk fuel o) := by
  refine (sim S h.toSLook).op hc (.inl rfl) o (fun _ _ => sim_change h _) (fun _ _ _ _ _ => sim_change h _)
    (fun _ _ _ _ => sim_change h _) ?_
  rintro p t c rfl s u hs
  unfold Lazy.op
  dsimp only
  rw [← h.iters hs]
  split
  · exact ⟨hs, rfl⟩
  · exact sim_change h _ s u hs

theorem sim_setAttr {S : LW → LW → Prop} (h : SStep S) (p : Nat) (n : Str) (v : Nat) :
    (sim S h.toSLook).K (setAttr p n v) (setAttr p n v) := by
  intro s t hs
  unfold setAttr
  rw [← h.attrs hs]
  split
  · exact ⟨h.setAttrs _ hs, rfl⟩
  · exact ⟨hs, rfl⟩

theorem sameBut_step : SStep SameBut where
  toSLook := sameBut_look
  change _ h := ⟨rfl, h.2⟩
  setAttrs _ h := ⟨h.1, rfl, h.2.2⟩

theorem same_execs {chk : Nat → LM Unit} (hc : ∀ p, (sim SameBut sameBut_look).K (chk p) (chk p)) (fuel : Nat) (cs : List Cmd) :
    (sim SameBut sameBut_look).K (execs chk fuel cs) (execs chk fuel cs) := by
  refine (sim SameBut sameBut_look).execs (P := fun _ => True)
    ((sim SameBut sameBut_look).leaf hc (.inl rfl) (fun o _ => sim_op sameBut_step hc fuel o) (fun p n v _ => sim_setAttr sameBut_step p n v)
      (fun p b _ => ?_)) cs (Cmds.all_true cs)
  intro s t hs
  unfold install
  rw [← hs.1, ← hs.2.2.1]
  split
  · exact ⟨hs, rfl⟩
  · split
    · exact ⟨hs, rfl⟩
    · exact ⟨⟨rfl, hs.2.1, rfl, hs.2.2.2.1, hs.2.2.2.2⟩, rfl⟩

theorem same_check (fuel p : Nat) : (sim SameBut sameBut_look).K (check fuel p) (check fuel p) := by
  induction fuel generalizing p with
  | zero => exact fun s t h => ⟨h, rfl⟩
  | succ fuel ih =>
    intro s t h
    cases hp : s.pending p with
    | none => rw [check_idle (.inl hp), check_idle (.inl (by rw [← h.2.2.1]; exact hp))]; exact ⟨h, rfl⟩
    | some body =>
      cases hr : s.running p with
      | true => rw [check_idle (.inr hr), check_idle (.inr (by rw [← h.2.2.2.1]; exact hr))]; exact ⟨h, rfl⟩
      | false =>
        rw [check_run hp hr, check_run (by rw [← h.2.2.1]; exact hp) (by rw [← h.2.2.2.1]; exact hr)]
        have := same_execs ih fuel body (begin_ s p body) (begin_ t p body)
          ⟨h.1, h.2.1, h.2.2.1, by simp only [begin_]; rw [h.2.2.2.1], h.2.2.2.2⟩
        obtain ⟨⟨h1, h2, h3, h4, h5⟩, h6⟩ := this
        exact ⟨⟨h1, h2, by simp only [end_]; rw [h3], by simp only [end_]; rw [h4], h5⟩, by dsimp only; rw [h6]⟩

theorem same_run (fuel : Nat) (cs : List Cmd) {s t : LW} (h : SameBut s t) :
    SameBut (run fuel cs s).1 (run fuel cs t).1 ∧ (run fuel cs s).2 = (run fuel cs t).2 :=
  same_execs (same_check fuel) fuel cs s t h

/-! ### inside the callback of `c` -/

/-- `s`: inside the callback; `t`: the same definitions made directly -/
structure Inside (c : Nat) (s t : LW) : Prop where
  w : s.w = t.w
  attrs : s.attrs = t.attrs
  iters : s.iter = t.iter
  pend : ∀ p, p ≠ c → s.pending p = t.pending p
  runs : ∀ p, p ≠ c → s.running p = t.running p
  pend_c : t.pending c = none
  runs_s : s.running c = true
  some_s : s.pending c ≠ none
  runs_t : t.running c = false
  quiet : ∀ p b, p ≠ c → t.pending p = some b → NoInstalls c b

theorem inside_look (c : Nat) : SStep (Inside c) where
  w h := h.w
  attrs h := h.attrs
  iters h := h.iters
  iter _ h := { h with iters := rfl }
  change _ h := { h with w := rfl }
  setAttrs _ h := { h with attrs := rfl }

mutual
theorem noInstall_all {c : Nat} : ∀ x, NoInstall c x → Cmd.All (fun y => ∀ p b, y = .install p b → p ≠ c ∧ NoInstalls c b) x
  | .attempt b, h => by unfold Cmd.All; exact noInstalls_all b (by simpa [NoInstall] using h)
  | .op _, _ | .setAttr .., _ | .query _, _ | .raise, _ => by simp [Cmd.All]
  | .install p b, h => by
    unfold Cmd.All
    rintro p' b' ⟨rfl, rfl⟩
    simpa [NoInstall] using h
theorem noInstalls_all {c : Nat} : ∀ xs, NoInstalls c xs → Cmds.All (fun y => ∀ p b, y = .install p b → p ≠ c ∧ NoInstalls c b) xs
  | [], _ => by simp [Cmds.All]
  | x :: l, h => by
    unfold Cmds.All
    simp only [NoInstalls] at h
    exact ⟨noInstall_all x h.1, noInstalls_all l h.2⟩
end

theorem inside_execs {c : Nat} {chk : Nat → LM Unit} (hc : ∀ p, (sim (Inside c) (inside_look c).toSLook).K (chk p) (chk p)) (fuel : Nat)
    (cs : List Cmd) (hn : NoInstalls c cs) :
    (sim (Inside c) (inside_look c).toSLook).K (execs chk fuel cs) (execs chk fuel cs) := by
  refine (sim (Inside c) (inside_look c).toSLook).execs
    ((sim (Inside c) (inside_look c).toSLook).leaf hc (.inl rfl) (fun o _ => sim_op (inside_look c) hc fuel o)
      (fun p n v _ => sim_setAttr (inside_look c) p n v) (fun p b hP => ?_)) cs (noInstalls_all cs hn)
  obtain ⟨hpc, hb⟩ := hP p b rfl
  intro s t hs
  unfold install
  rw [← hs.w, ← hs.pend p hpc]
  split
  · exact ⟨hs, rfl⟩
  · split
    · exact ⟨hs, rfl⟩
    · refine ⟨⟨rfl, hs.attrs, hs.iters, fun q hq => ?_, hs.runs, ?_, hs.runs_s, ?_, hs.runs_t, fun q b' hq e => ?_⟩, rfl⟩
      · simp only [upd]; rw [hs.pend q hq]
      · simp only [upd]; rw [if_neg (Ne.symm hpc)]; exact hs.pend_c
      · simp only [upd]; rw [if_neg (Ne.symm hpc)]; exact hs.some_s
      · simp only [upd] at e
        split at e
        · cases e; exact hb
        · exact hs.quiet q b' hq e

theorem inside_check (c fuel p : Nat) : (sim (Inside c) (inside_look c).toSLook).K (check fuel p) (check fuel p) := by
  induction fuel generalizing p with
  | zero => exact fun s t h => ⟨h, rfl⟩
  | succ fuel ih =>
    intro s t h
    by_cases hpc : p = c
    · subst hpc
      rw [check_idle (.inr h.runs_s), check_idle (.inl h.pend_c)]
      exact ⟨h, rfl⟩
    · cases hp : s.pending p with
      | none => rw [check_idle (.inl hp), check_idle (.inl (by rw [← h.pend p hpc]; exact hp))]; exact ⟨h, rfl⟩
      | some body =>
        have hpt : t.pending p = some body := by rw [← h.pend p hpc]; exact hp
        cases hr : s.running p with
        | true => rw [check_idle (.inr hr), check_idle (.inr (by rw [← h.runs p hpc]; exact hr))]; exact ⟨h, rfl⟩
        | false =>
          rw [check_run hp hr, check_run hpt (by rw [← h.runs p hpc]; exact hr)]
          have := inside_execs ih fuel body (h.quiet p body hpc hpt) (begin_ s p body) (begin_ t p body)
            { h with
              runs := fun q hq => by simp only [begin_, upd]; rw [h.runs q hq]
              runs_s := by simp only [begin_, upd]; rw [if_neg (Ne.symm hpc)]; exact h.runs_s
              runs_t := by simp only [begin_, upd]; rw [if_neg (Ne.symm hpc)]; exact h.runs_t }
          obtain ⟨h1, h2⟩ := this
          refine ⟨{ h1 with
            pend := fun q hq => by simp only [end_, upd]; rw [h1.pend q hq]
            runs := fun q hq => by simp only [end_, upd]; rw [h1.runs q hq]
            pend_c := by simp only [end_, upd]; rw [if_neg (Ne.symm hpc)]; exact h1.pend_c
            runs_s := by simp only [end_, upd]; rw [if_neg (Ne.symm hpc)]; exact h1.runs_s
            some_s := by simp only [end_, upd]; rw [if_neg (Ne.symm hpc)]; exact h1.some_s
            runs_t := by simp only [end_, upd]; rw [if_neg (Ne.symm hpc)]; exact h1.runs_t
            quiet := fun q b hq e => ?_ }, by dsimp only; rw [h2]⟩
          simp only [end_, upd] at e
          split at e
          · simp at e
          · exact h1.quiet q b hq e

/-- running the callback is making its definitions directly -/
theorem check_eager {fuel c : Nat} {s : LW} {body : List Cmd} (hp : s.pending c = some body) (hr : s.running c = false)
    (hb : NoInstalls c body) (hq : ∀ p b, p ≠ c → s.pending p = some b → NoInstalls c b) :
    SameBut (check (fuel + 1) c s).1 (run fuel body { s with pending := upd s.pending c none }).1 ∧
    (check (fuel + 1) c s).2 = outcome (run fuel body { s with pending := upd s.pending c none }).2 := by
  rw [check_run hp hr]
  have := inside_execs (inside_check c fuel) fuel body hb (begin_ s c body) { s with pending := upd s.pending c none }
    { w := rfl, attrs := rfl, iters := rfl
      pend := fun p hpc => by simp [begin_, upd, hpc]
      runs := fun p hpc => by simp [begin_, upd, hpc]
      pend_c := by simp [upd]
      runs_s := by simp [begin_, upd]
      some_s := by simp [begin_, hp]
      runs_t := hr
      quiet := fun p b hpc e => hq p b hpc (by simpa [upd, hpc] using e) }
  obtain ⟨h1, h2⟩ := this
  unfold run
  refine ⟨⟨h1.w, h1.attrs, ?_, ?_, h1.iters⟩, by dsimp only; rw [h2]⟩
  · funext p
    by_cases e : p = c
    · subst e; simp only [end_, upd, if_true]; exact h1.pend_c.symm
    · simp only [end_, upd, if_neg e]; exact h1.pend p e
  · funext p
    by_cases e : p = c
    · subst e; simp only [end_, upd, if_true]; exact h1.runs_t.symm
    · simp only [end_, upd, if_neg e]; exact h1.runs p e

end Rtti.Lazy
