import Verif.Props.Race
/-! C19 with threads, exactly: who can make a second class of a type. -/
set_option autoImplicit false
namespace Rtti.Props
open Rtti Spec Race

/-- thread `i` is inside a call `_class<ty>(n)` that has found neither the name nor the type -/
def PastCheck (s : Race.State) (ty : TypeId) (n : Str) (i : Nat) : Prop :=
  ∃ r, ((s.threads i).pc = .checked r ∨ ∃ p, (s.threads i).pc = .allocated r p) ∧ r.type = some ty ∧ r.name = n

private structure Since (s s' : Race.State) (ty : TypeId) : Prop where
  found : s'.metaClass ty ≠ none
  past : ∀ n i, PastCheck s' ty n i → PastCheck s ty n i
  old : ∀ x ∈ s.list.items, x ∈ s'.list.items
  new : ∀ x ∈ s'.list.items, s'.typeOf x.ptr = some ty → x ∈ s.list.items ∨ ∃ i, PastCheck s ty x.name i

private theorem Since.step {Ok : Req → Prop} {s s' : Race.State} {ty : TypeId} (h : Since s s' ty) (r' : RInv Ok s') (i : Nat) (k : LookKind) :
    Since s (step k s' i) ty := by
  -- a step that leaves the list and the types alone
  have quiet : ∀ s'' : Race.State, s''.list = s'.list → (∀ x ∈ s'.list.items, s''.typeOf x.ptr = s'.typeOf x.ptr) →
      s''.metaClass ty ≠ none → (∀ j, j ≠ i → s''.threads j = s'.threads j) →
      (∀ n, PastCheck s'' ty n i → PastCheck s' ty n i) → Since s s'' ty := by
    intro s'' e1 e2 e3 e4 e5
    refine ⟨e3, fun n j hj => h.past n j ?_, by rw [e1]; exact h.old, ?_⟩
    · by_cases hji : j = i
      · subst hji; exact e5 n hj
      · unfold PastCheck at hj ⊢; rw [e4 j hji] at hj; exact hj
    · rw [e1]; intro x hx ht; exact h.new x hx (by rw [← e2 x hx]; exact ht)
  have oth : ∀ (t' : Thread) (j : Nat), j ≠ i → upd s'.threads i t' j = s'.threads j := fun t' j hj => upd_ne _ _ hj
  have nopast : ∀ {s'' : Race.State} {t' : Thread} {n : Str}, s''.threads = upd s'.threads i t' →
      (∀ r, t'.pc ≠ .checked r) → (∀ r p, t'.pc ≠ .allocated r p) → ¬ PastCheck s'' ty n i := by
    rintro s'' t' n e a b ⟨r, h | ⟨p, h⟩, _⟩
    · rw [e, upd_same] at h; exact a r h
    · rw [e, upd_same] at h; exact b r p h
  unfold Race.step
  dsimp only
  cases hpc : (s'.threads i).pc with
  | idle =>
    cases (s'.threads i).todo with
    | nil => exact h
    | cons r rest => exact quiet _ rfl (fun _ _ => rfl) h.found (oth _) fun n hn => absurd hn (nopast rfl (by simp) (by simp))
  | start r =>
    dsimp only
    split <;> exact quiet _ rfl (fun _ _ => rfl) h.found (oth _) fun n hn => absurd hn (nopast rfl (by simp [Thread.finish]) (by simp [Thread.finish]))
  | miss r =>
    dsimp only
    split
    · rename_i ht
      refine quiet _ rfl (fun _ _ => rfl) h.found (oth _) fun n hn => ?_
      obtain ⟨r', hn | ⟨p, hn⟩, e1, _⟩ := hn
      · simp only [upd_same] at hn; cases hn; rw [ht] at e1; cases e1
      · simp only [upd_same] at hn; cases hn
    · rename_i ty' ht
      split
      · exact quiet _ rfl (fun _ _ => rfl) h.found (oth _) fun n hn => absurd hn (nopast rfl (by simp [Thread.finish]) (by simp [Thread.finish]))
      · split
        · exact quiet _ rfl (fun _ _ => rfl) h.found (oth _) fun n hn => absurd hn (nopast rfl (by simp [Thread.finish]) (by simp [Thread.finish]))
        · rename_i hm
          refine quiet _ rfl (fun _ _ => rfl) h.found (oth _) fun n hn => ?_
          obtain ⟨r', hn | ⟨p, hn⟩, e1, _⟩ := hn
          · simp only [upd_same] at hn; cases hn
            rw [ht] at e1; cases e1
            have := h.found
            cases e : s'.metaClass ty <;> simp_all
          · simp only [upd_same] at hn; cases hn
  | checked r =>
    refine quiet _ rfl (fun x hx => ?_) h.found (oth _) fun n hn => ?_
    · have := r'.lt _ (r'.items x hx).1
      exact upd_ne _ _ (by omega)
    · obtain ⟨r', hn | ⟨p, hn⟩, e1, e2⟩ := hn
      · simp only [upd_same] at hn; cases hn
      · simp only [upd_same] at hn; cases hn; exact ⟨r, .inl hpc, e1, e2⟩
  | allocated r p =>
    dsimp only
    obtain ⟨_, _, hty⟩ := (r'.thr i).held r p (.inl hpc)
    have spec := r'.wf.add_spec ⟨p, r.name⟩
    split at spec
    · rw [spec]
      exact quiet _ rfl (fun _ _ => rfl) h.found (oth _) fun n hn => absurd hn (nopast rfl (by simp) (by simp))
    · obtain ⟨e1, e2⟩ := spec
      -- the list grows by the class of a call that was past its check
      have grow : ∀ s'' : Race.State, s''.list = (s'.list.add (some ⟨p, r.name⟩)).1 → s''.typeOf = s'.typeOf →
          s''.metaClass = s'.metaClass → (∀ j, j ≠ i → s''.threads j = s'.threads j) → (∀ n, ¬ PastCheck s'' ty n i) → Since s s'' ty := by
        intro s'' f1 f2 f3 f4 f5
        refine ⟨by rw [f3]; exact h.found, fun n j hj => h.past n j ?_, fun x hx => ?_, ?_⟩
        · by_cases hji : j = i
          · subst hji; exact absurd hj (f5 n)
          · unfold PastCheck at hj ⊢; rw [f4 j hji] at hj; exact hj
        · rw [f1, e1]; exact List.mem_append_left _ (h.old x hx)
        · rw [f1, e1, f2]
          intro x hx ht
          rcases List.mem_append.1 hx with hx | hx
          · exact h.new x hx ht
          · cases List.mem_singleton.1 hx
            exact .inr ⟨i, h.past _ i ⟨r, .inr ⟨p, hpc⟩, by rw [← hty]; exact ht, rfl⟩⟩
      rw [if_pos e2]
      split
      · exact grow _ rfl rfl rfl (oth _) fun n => nopast rfl (by simp) (by simp)
      · exact grow _ rfl rfl rfl (oth _) fun n => nopast rfl (by simp [Thread.finish]) (by simp [Thread.finish])
  | refused r p =>
    exact quiet _ rfl (fun _ _ => rfl) h.found (oth _) fun n hn => absurd hn (nopast rfl (by simp) (by simp))
  | deleted r =>
    exact quiet _ rfl (fun _ _ => rfl) h.found (oth _) fun n hn => absurd hn (nopast rfl (by simp [Thread.finish]) (by simp [Thread.finish]))
  | added r ty' p =>
    refine quiet _ rfl (fun _ _ => rfl) ?_ (oth _) fun n hn => absurd hn (nopast rfl (by simp [Thread.finish]) (by simp [Thread.finish]))
    dsimp only [upd]
    split
    · simp
    · exact h.found

/-- C19 with threads, exactly: once a type can be found, another class for it, under the name `n`, can still appear if and only if
    some thread is inside a call for that type and name whose checks came before, and no class has that name. In particular calls
    that begin when the type can be found never make a second class. -/
theorem C19_concurrent_exact (valid : TypeId → Bool) (programs : Nat → List Req) (hp : ∀ i, ∀ r ∈ programs i, r.name ≠ [])
    (sched : List Nat) (ty : TypeId) (n : Str) :
    let s := run .byName (init valid programs) sched
    s.metaClass ty ≠ none →
    ((∃ sched', ∃ x ∈ (run .byName s sched').list.items, x ∉ s.list.items ∧ x.name = n ∧
        (run .byName s sched').typeOf x.ptr = some ty) ↔
      (∃ i, PastCheck s ty n i) ∧ ∀ x ∈ s.list.items, x.name ≠ n) := by
  intro s hm
  have inv : RInv (fun r => r.name ≠ []) s := (RInv.init valid programs hp).run (k := .byName) (fun _ h => h) sched
  have since : ∀ (is : List Nat) (s' : Race.State), RInv (fun r => r.name ≠ []) s' → Since s s' ty →
      Since s (run .byName s' is) ty := by
    intro is
    induction is with
    | nil => exact fun _ _ h => h
    | cons i is ih => exact fun s' r h => ih _ (r.step (k := .byName) (fun _ h => h) i) (h.step r i .byName)
  constructor
  · rintro ⟨is, x, hx, hx', rfl, ht⟩
    have h := since is s inv ⟨hm, fun _ _ h => h, fun _ h => h, fun _ h _ => .inl h⟩
    refine ⟨(h.new x hx ht).resolve_left hx', fun y hy e => hx' ?_⟩
    have i' : RInv (fun r => r.name ≠ []) (run .byName s is) := inv.run (k := .byName) (fun _ h => h) is
    obtain ⟨_, r, hr, e', _⟩ := i'.items x hx
    rw [← wf_ptr_unique i'.wf (n := x.name) (by rw [← e']; exact hr) (h.old y hy) hx e rfl]
    exact hy
  · rintro ⟨⟨i, r, hpc, hr, rfl⟩, hno⟩
    have add : ∀ (s' : Race.State), RInv (fun r => r.name ≠ []) s' → ∀ p, (s'.threads i).pc = .allocated r p → s'.list = s.list →
        ∃ x ∈ (step .byName s' i).list.items, x ∉ s.list.items ∧ x.name = r.name ∧ (step .byName s' i).typeOf x.ptr = some ty := by
      intro s' r' p hpc hl
      obtain ⟨_, hne, hty⟩ := (r'.thr i).held r p (.inl hpc)
      have spec := r'.wf.add_spec ⟨p, r.name⟩
      rw [if_neg] at spec
      · refine ⟨⟨p, r.name⟩, ?_, fun hm => hno _ hm rfl, rfl, ?_⟩
        · simp only [step, hpc, spec.2, if_true, hr, spec.1]
          simp
        · simp only [step, hpc, spec.2, if_true, hr]
          rw [← hr]; exact hty
      · rintro (⟨x, hx, e⟩ | ⟨x, hx, e⟩)
        · exact hne x hx e
        · exact hno x (by rw [← hl]; exact hx) e
    rcases hpc with hpc | ⟨p, hpc⟩
    · refine ⟨[i, i], add (step .byName s i) (inv.step (k := .byName) (fun _ h => h) i) s.next ?_ ?_⟩
      · simp [step, hpc, upd]
      · simp [step, hpc]
    · exact ⟨[i], add s inv p hpc rfl⟩

/- thread 0 has defined the type 7 as `a`; thread 1 had checked before and makes it again as `b`; thread 2 comes too late -/
example : let programs : Nat → List Req := fun i =>
      if i = 0 then [⟨['a'], some 7⟩] else if i = 1 then [⟨['b'], some 7⟩] else if i = 2 then [⟨['c'], some 7⟩] else []
    let s := run .byName (init (fun _ => true) programs) [1, 1, 1, 0, 0, 0, 0, 0, 0]
    s.metaClass 7 = some 1 ∧ PastCheck s 7 ['b'] 1 ∧ (∀ x ∈ s.list.items, x.name ≠ ['b']) ∧
    ((run .byName s [1, 1, 2, 2, 2]).threads 2).results = [(⟨['c'], some 7⟩, .threw .duplicateClass)] := by
  refine ⟨by decide +kernel, ⟨⟨['b'], some 7⟩, .inl (by decide +kernel), rfl, rfl⟩, by decide +kernel, by decide +kernel⟩

end Rtti.Props
