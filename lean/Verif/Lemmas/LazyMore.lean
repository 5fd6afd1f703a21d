import Verif.Lemmas.LazyBases
set_option autoImplicit false
namespace Rtti.Lazy
open LM Spec

/-! ### the record only grows -/

def Grows (s s' : LW) : Prop := s.log <+: s'.log

theorem grows_look : QLook Grows where
  refl _ := List.prefix_refl _
  trans h h' := List.IsPrefix.trans h h'
  iter h := h

theorem grows_execs {chk : Nat → LM Unit} (hc : ∀ p, (io Grows grows_look).K (chk p) (chk p)) (fuel : Nat) (cs : List Cmd) :
    (io Grows grows_look).K (execs chk fuel cs) (execs chk fuel cs) := by
  refine (io Grows grows_look).execs (P := fun _ => True)
    ((io Grows grows_look).leaf hc (.inl rfl) (fun o _ => ?_) (fun p n v _ => ?_) (fun p b _ => ?_)) cs (Cmds.all_true cs)
  · refine (io Grows grows_look).op hc (.inl rfl) o (fun _ _ s => grows_look.refl s) (fun _ _ _ _ _ s => grows_look.refl s)
      (fun _ _ _ _ s => grows_look.refl s) ?_
    rintro p t c rfl s
    unfold Lazy.op
    dsimp only
    split <;> exact grows_look.refl s
  · intro s; unfold setAttr; split <;> exact grows_look.refl s
  · intro s
    unfold install
    split
    · exact grows_look.refl s
    · split
      · exact grows_look.refl s
      · exact List.prefix_append _ _

theorem grows_check (fuel p : Nat) : (io Grows grows_look).K (check fuel p) (check fuel p) := by
  induction fuel generalizing p with
  | zero => exact fun s => grows_look.refl s
  | succ fuel ih =>
    intro s
    cases hp : s.pending p with
    | none => rw [check_idle (.inl hp)]; exact grows_look.refl s
    | some body =>
      cases hr : s.running p with
      | true => rw [check_idle (.inr hr)]; exact grows_look.refl s
      | false =>
        rw [check_run hp hr]
        have h := grows_execs ih fuel body (begin_ s p body)
        exact (List.prefix_append _ _).trans (List.IsPrefix.trans h (List.prefix_append _ _))

theorem installedFor_prefix {p : Nat} {l l' : List Event} (h : l <+: l') : installedFor p l <+: installedFor p l' := by
  obtain ⟨x, rfl⟩ := h
  rw [installedFor_append]; exact List.prefix_append _ _

theorem startedFor_prefix {p : Nat} {l l' : List Event} (h : l <+: l') : startedFor p l <+: startedFor p l' := by
  obtain ⟨x, rfl⟩ := h
  rw [startedFor_append]; exact List.prefix_append _ _

/-! ### well-formed lists and class table -/

def Lists (s : LW) : Prop := (∀ c k, (s.w.cont c k).Wf) ∧ (∀ t q, s.w.metaClass t = some q → q < s.w.next)

def ListsQ (s s' : LW) : Prop := Lists s → Lists s'

theorem lists_look : QLook ListsQ where
  refl _ h := h
  trans h h' i := h' (h i)
  iter h := h

theorem lists_tryCreate (c : Nat) (k : Cat) (n : Str) (t : Nat) :
    (io ListsQ lists_look).K (change (tryCreate c k n t)) (change (tryCreate c k n t)) := by
  intro s h
  obtain ⟨h1, h2, h3, h4, h5, h6⟩ := tryCreate_frame c k n t s.w h.1
  refine ⟨h6, fun t' q e => ?_⟩
  have e : (tryCreate c k n t s.w).1.metaClass t' = some q := e
  rw [h2] at e
  have := h.2 t' q e
  show q < (tryCreate c k n t s.w).1.next
  omega

theorem lists_tryCreateClass (c : Nat) (n : Str) (t : Nat) :
    (io ListsQ lists_look).K (change (tryCreateClass c n t)) (change (tryCreateClass c n t)) := by
  intro s h
  unfold change tryCreateClass
  split
  · exact h
  · split
    · exact h
    · have hf := lists_tryCreate c .cls n t s h
      have h1 := (tryCreate_frame c .cls n t s.w h.1).1
      have hq : ∀ q, (tryCreate c .cls n t s.w).2 = .val (some q) → q = s.w.next := fun q => tryCreate_val c .cls n t s.w
      unfold change at hf
      generalize tryCreate c .cls n t s.w = r at hf h1 hq
      obtain ⟨w1, r⟩ := r
      dsimp only at hf h1 hq
      split
      · rename_i w2 q e
        cases e
        have hq := hq q rfl
        refine ⟨hf.1, fun t' q' e => ?_⟩
        dsimp only [upd] at e ⊢
        split at e
        · cases e; omega
        · exact hf.2 t' q' e
      · exact hf

theorem lists_execs {chk : Nat → LM Unit} (hc : ∀ p, (io ListsQ lists_look).K (chk p) (chk p)) (fuel : Nat) (cs : List Cmd) :
    (io ListsQ lists_look).K (execs chk fuel cs) (execs chk fuel cs) := by
  refine (io ListsQ lists_look).execs (P := fun _ => True)
    ((io ListsQ lists_look).leaf hc (.inl rfl) (fun o _ => ?_) (fun p n v _ => ?_) (fun p b _ => ?_)) cs (Cmds.all_true cs)
  · refine (io ListsQ lists_look).op hc (.inl rfl) o (fun t _ s h => ?_) (fun _ _ _ _ _ => lists_tryCreate _ _ _ _)
      (fun _ _ _ _ => lists_tryCreateClass _ _ _) ?_
    · unfold change
      simp only [World.step]
      split <;> exact h
    · rintro p t c rfl s
      unfold Lazy.op
      dsimp only
      split
      · exact lists_look.refl s
      · intro h
        unfold change
        rcases step_addBase s.w p t c with e | e <;> (dsimp only; rw [e])
        · exact h
        · obtain ⟨h1, h2, h3, h4, h5, h6⟩ := addBaseClass_frame s.w p t c
          refine ⟨fun c k => ?_, fun t q e => ?_⟩
          · dsimp only; rw [h3]; exact h.1 c k
          · dsimp only at e ⊢; rw [h5] at e; rw [h2]; exact h.2 t q e
  · intro s; unfold setAttr; split <;> exact lists_look.refl s
  · intro s
    unfold install
    split
    · exact lists_look.refl s
    · split <;> exact lists_look.refl s

theorem lists_check (fuel p : Nat) : (io ListsQ lists_look).K (check fuel p) (check fuel p) := by
  induction fuel generalizing p with
  | zero => exact fun s => lists_look.refl s
  | succ fuel ih =>
    intro s
    cases hp : s.pending p with
    | none => rw [check_idle (.inl hp)]; exact lists_look.refl s
    | some body =>
      cases hr : s.running p with
      | true => rw [check_idle (.inr hr)]; exact lists_look.refl s
      | false =>
        rw [check_run hp hr]
        exact lists_execs ih fuel body (begin_ s p body)

theorem lists_init : Lists init := ⟨fun _ _ => ItemList.Wf.empty, fun t q h => by cases h⟩

theorem Life.pending_mem {p : Nat} {l : List Event} {o : Option (List Cmd)} {r : Bool} (h : Life p l o r) {b : List Cmd}
    (e : o = some b) : b ∈ installedFor p l := by
  induction h with
  | nil => cases e
  | installed b' h ih => cases e; simp [installedFor_append, installedFor]
  | started h ih => rw [installedFor_append]; exact List.mem_append_left _ (ih e)
  | finished h ih => cases e
  | installed' b' hq h ih | started' b' hq h ih | finished' hq h ih =>
    rw [installedFor_append]; exact List.mem_append_left _ (ih e)

/-! ### what holds at the top level after any program -/

structure Top (s : LW) : Prop where
  alive : Alive s
  calm : ∀ p, s.running p = false
  kinds : KindsOk s
  lists : Lists s
  iter : s.iter = []

theorem top_init : Top init := ⟨alive_init, fun _ => rfl, kindsOk_init, lists_init, rfl⟩

theorem Top.run {s : LW} (h : Top s) (fuel : Nat) (cs : List Cmd) : Top (run fuel cs s).1 :=
  ⟨(keeps_run fuel cs s).alive h.alive, fun p => by rw [(keeps_run fuel cs s).running]; exact h.calm p,
    (kinds_run fuel cs s h.kinds).1, lists_execs (lists_check fuel) fuel cs s h.lists, (keeps_run fuel cs s).iter.trans h.iter⟩

theorem Top.account {s : LW} (h : Top s) (p : Nat) :
    installedFor p s.log = startedFor p s.log ++ (s.pending p).toList ∧ finishedFor p s.log = (startedFor p s.log).length := by
  have := (h.alive p).account
  rw [h.calm p] at this
  simpa [lastUnrun, eq_comm] using this

theorem run_cons (fuel : Nat) (c : Cmd) (cs : List Cmd) (s : LW) :
    run fuel (c :: cs) s = ((exec (check fuel) fuel c).bind fun a => (run fuel cs).bind fun as => LM.pure (a :: as)) s := by
  unfold run
  rw [execs]

/-- a lazy definition followed by a query -/
theorem lazy_query {fuel c : Nat} {k : Cat} {s : LW} (hT : Top s) {body : List Cmd} (hp : s.pending c = some body)
    (hk : k = .cls ∨ k = .nmspace) (hs : s.w.kind c = some k) {q : Query} (ha : Asks c k q) (hb : NoInstalls c body)
    (hq : ∀ p b, p ≠ c → s.pending p = some b → NoInstalls c b) (rest : List Cmd) :
    ∀ t r, run fuel body { s with pending := upd s.pending c none } = (t, r) →
      (∀ a, r = .val a → SameBut (run (fuel + 1) (.query q :: rest) s).1 (run (fuel + 1) (.query q :: rest) t).1 ∧
        (run (fuel + 1) (.query q :: rest) s).2 = (run (fuel + 1) (.query q :: rest) t).2) ∧
      (∀ e, r = .throw e → SameBut (run (fuel + 1) (.query q :: rest) s).1 t ∧
        (run (fuel + 1) (.query q :: rest) s).2 = .throw e) := by
  intro t r e
  obtain ⟨h1, h2⟩ := check_eager (fuel := fuel) hp (hT.calm c) hb hq
  rw [e] at h1 h2
  have hqc := query_check (fuel := fuel) hk ha hs hT.kinds (hT.calm c)
  constructor
  · rintro a rfl
    cases hc : check (fuel + 1) c s with
    | mk s1 r1 =>
      rw [hc] at h1 h2 hqc
      cases h2
      have h3 : run (fuel + 1) (.query q :: rest) s = run (fuel + 1) (.query q :: rest) s1 := by
        rw [run_cons, run_cons]
        unfold LM.bind exec
        rw [hqc]
      rw [h3]
      exact same_run (fuel + 1) (.query q :: rest) h1
  · rintro x rfl
    cases hc : check (fuel + 1) c s with
    | mk s1 r1 =>
      rw [hc] at h1 h2 hqc
      cases h2
      have h3 : run (fuel + 1) (.query q :: rest) s = (s1, .throw x) := by
        rw [run_cons]
        unfold LM.bind exec
        rw [hqc]
      rw [h3]
      exact ⟨h1, rfl⟩

end Rtti.Lazy
