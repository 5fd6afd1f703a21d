import Verif.Lemmas.CastRace
/-! Everything comes to an end: a measure that each step decreases, and what was asked for is done. -/
set_option autoImplicit false
namespace Rtti.CastRace

theorem sum_change {f f' : Nat → Nat} {i n : Nat} (hi : i < n) (ho : ∀ j, j ≠ i → f' j = f j) :
    ((List.range n).map f').sum + f i = ((List.range n).map f).sum + f' i := by
  induction n with
  | zero => omega
  | succ n ih =>
    simp only [List.range_succ, List.map_append, List.sum_append, List.map_cons, List.map_nil, List.sum_cons, List.sum_nil]
    by_cases h : i = n
    · subst h
      have : ((List.range i).map f').sum = ((List.range i).map f).sum := by
        congr 1
        refine List.map_congr_left fun j hj => ho j ?_
        have := List.mem_range.1 hj
        omega
      omega
    · have h1 := ih (by omega)
      have h2 := ho n (fun h' => h h'.symm)
      omega

/-! ### what is asked for is done -/

/-- what is asked for, what is under way and what is there -/
structure Asked (n : Nat) (programs : Nat → List Req) (s : State) : Prop where
  num : s.n = n
  todo : ∀ i r, r ∈ (s.threads i).todo → r ∈ programs i
  pc : ∀ i d b f, (s.threads i).pc = .want d b f ∨ (s.threads i).pc = .hold d b f → .addBase d b f ∈ programs i
  base : ∀ d it, it ∈ s.bases d → ∃ i, i < n ∧ Req.addBase d it.1 it.2 ∈ programs i
  once : ∀ d, ((s.bases d).map (·.1)).Nodup
  got : ∀ i d b f, i < n → .addBase d b f ∈ programs i → .addBase d b f ∈ (s.threads i).todo ∨ (s.threads i).pc = .want d b f ∨
    (s.threads i).pc = .hold d b f ∨ b ∈ (s.bases d).map (·.1)

theorem Asked.init (n : Nat) (programs : Nat → List Req) : Asked n programs (init n programs) :=
  ⟨rfl, fun _ _ h => h, fun _ _ _ _ h => (by rcases h with h | h <;> cases h), fun _ _ h => (by cases h), fun _ => List.nodup_nil,
   fun _ _ _ _ _ h => .inl h⟩

/-- no step inside `cast` leads to `addBaseClass` or out of it -/
theorem advance_no_add {g : Graph} {blocked : Ptr → Bool} {p p' : Pc} (e : advance g blocked p = some p') (d b : Ptr) (f : Caster) :
    p' ≠ .want d b f ∧ p' ≠ .hold d b f ∧ p' ≠ .idle := by
  cases p with
  | idle => cases e
  | want => cases e
  | hold => cases e
  | enter q c x outer =>
    simp only [advance] at e
    split at e
    · cases e; exact ⟨nofun, nofun, nofun⟩
    · split at e
      · cases e
      · cases e; exact ⟨nofun, nofun, nofun⟩
  | items q c x rest outer =>
    cases rest with
    | nil => cases e; exact ⟨nofun, nofun, nofun⟩
    | cons it rest => obtain ⟨b, f⟩ := it; cases e; exact ⟨nofun, nofun, nofun⟩
  | unwind q r outer =>
    cases outer with
    | nil => cases e
    | cons => cases e; exact ⟨nofun, nofun, nofun⟩
  | test q c x b f rest outer a m fs =>
    cases m with
    | enter y =>
      simp only [advance] at e
      split at e
      · cases e; exact ⟨nofun, nofun, nofun⟩
      · split at e
        · cases e
        · cases e; exact ⟨nofun, nofun, nofun⟩
    | loop =>
      cases fs with
      | nil => cases e; exact ⟨nofun, nofun, nofun⟩
      | cons fr fs =>
        obtain ⟨y, zs⟩ := fr
        cases zs <;> cases e <;> exact ⟨nofun, nofun, nofun⟩
    | found => cases fs <;> cases e <;> exact ⟨nofun, nofun, nofun⟩

theorem mem_append_fst {l : List (Ptr × Caster)} {b x : Ptr} {f : Caster} :
    x ∈ (append l b f).map (·.1) ↔ x ∈ l.map (·.1) ∨ x = b := by
  unfold append
  split
  · rename_i h
    simp only [List.any_eq_true, beq_iff_eq] at h
    obtain ⟨it, h1, h2⟩ := h
    refine ⟨.inl, fun h' => h'.elim id fun e => ?_⟩
    rw [e, ← h2]; exact List.mem_map_of_mem h1
  · simp

theorem nodup_append_fst {l : List (Ptr × Caster)} {b : Ptr} {f : Caster} (h : (l.map (·.1)).Nodup) : ((append l b f).map (·.1)).Nodup := by
  unfold append
  split
  · exact h
  · rename_i hn
    rw [List.map_append]
    refine List.nodup_append.2 ⟨h, by simp, fun a ha c hc e => hn ?_⟩
    simp only [List.map_cons, List.map_nil, List.mem_singleton] at hc
    obtain ⟨it, h1, h2⟩ := List.mem_map.1 ha
    simp only [List.any_eq_true, beq_iff_eq]
    exact ⟨it, h1, by rw [h2, e, hc]⟩

theorem Asked.step {n : Nat} {programs : Nat → List Req} {fair : Bool} {s s' : State} (a : Asked n programs s) {i : Nat}
    (h : step fair s i = some s') : Asked n programs s' := by
  have move : ∀ t : Thread, (∀ r ∈ t.todo, r ∈ (s.threads i).todo) →
      (∀ d b f, t.pc = .want d b f ∨ t.pc = .hold d b f → .addBase d b f ∈ programs i) →
      (∀ d b f, .addBase d b f ∈ (s.threads i).todo ∨ (s.threads i).pc = .want d b f ∨ (s.threads i).pc = .hold d b f →
        .addBase d b f ∈ t.todo ∨ t.pc = .want d b f ∨ t.pc = .hold d b f) →
      Asked n programs (s.put i t) := by
    intro t h1 h2 h3
    refine ⟨a.num, fun j r hr => ?_, fun j d b f hj => ?_, a.base, a.once, fun j d b f hj hm => ?_⟩
    · simp only [State.put] at hr
      by_cases e : j = i
      · subst e; rw [upd_same] at hr; exact a.todo j r (h1 r hr)
      · rw [upd_ne _ _ e] at hr; exact a.todo j r hr
    · simp only [State.put] at hj
      by_cases e : j = i
      · subst e; rw [upd_same] at hj; exact h2 d b f hj
      · rw [upd_ne _ _ e] at hj; exact a.pc j d b f hj
    · simp only [State.put]
      by_cases e : j = i
      · subst e
        rw [upd_same]
        rcases a.got j d b f hj hm with h | h | h | h
        · rcases h3 d b f (.inl h) with h | h | h <;> simp [h]
        · rcases h3 d b f (.inr (.inl h)) with h | h | h <;> simp [h]
        · rcases h3 d b f (.inr (.inr h)) with h | h | h <;> simp [h]
        · exact .inr (.inr (.inr h))
      · rw [upd_ne _ _ e]; exact a.got j d b f hj hm
  unfold CastRace.step at h
  split at h
  · cases h
  split at h
  · rename_i hp
    split at h
    · cases h
    · rename_i e
      cases h
      refine move _ (fun r hr => by rw [e]; exact List.mem_cons_of_mem _ hr) (fun d b f h => by rcases h with h | h <;> cases h) (fun d b f h => ?_)
      rcases h with h | h | h
      · rw [e] at h
        rcases List.mem_cons.1 h with h | h
        · cases h
        · exact .inl h
      · rw [hp] at h; cases h
      · rw [hp] at h; cases h
    · rename_i d b f rest e
      cases h
      refine move _ (fun r hr => by rw [e]; exact List.mem_cons_of_mem _ hr) (fun d' b' f' h => ?_) (fun d' b' f' h => ?_)
      · rcases h with h | h
        · cases h; exact a.todo i _ (by rw [e]; exact List.mem_cons_self ..)
        · cases h
      · rcases h with h | h | h
        · rw [e] at h
          rcases List.mem_cons.1 h with h | h
          · cases h; exact .inr (.inl rfl)
          · exact .inl h
        · rw [hp] at h; cases h
        · rw [hp] at h; cases h
  · rename_i hp
    cases h
    refine move _ (fun r hr => hr) (fun d b f h => by rcases h with h | h <;> cases h) (fun d b f h => ?_)
    rw [hp] at h
    rcases h with h | h | h
    · exact .inl h
    · cases h
    · cases h
  · rename_i d b f hp
    split at h
    · cases h
    · cases h
      refine move _ (fun r hr => hr) (fun d' b' f' h => ?_) (fun d' b' f' h => ?_)
      · rcases h with h | h
        · cases h
        · cases h; exact a.pc i d b f (.inl hp)
      · rw [hp] at h
        rcases h with h | h | h
        · exact .inl h
        · cases h; exact .inr (.inr rfl)
        · cases h
  · rename_i d b f hp
    cases h
    refine ⟨a.num, fun j r hr => ?_, fun j d' b' f' hj => ?_, fun d' it hit => ?_, fun d' => ?_, fun j d' b' f' hj hm => ?_⟩
    · simp only [State.put] at hr
      by_cases e : j = i
      · subst e; rw [upd_same] at hr; exact a.todo j r hr
      · rw [upd_ne _ _ e] at hr; exact a.todo j r hr
    · simp only [State.put] at hj
      by_cases e : j = i
      · subst e; rw [upd_same] at hj; rcases hj with hj | hj <;> cases hj
      · rw [upd_ne _ _ e] at hj; exact a.pc j d' b' f' hj
    · simp only at hit
      by_cases e : d' = d
      · subst e
        rw [upd_same] at hit
        unfold append at hit
        split at hit
        · exact a.base _ _ hit
        · rcases List.mem_append.1 hit with hit | hit
          · exact a.base _ _ hit
          · rw [List.mem_singleton.1 hit]
            rename_i hni _
            exact ⟨i, by have := a.num; omega, a.pc i _ _ _ (.inr hp)⟩
      · rw [upd_ne _ _ e] at hit; exact a.base _ _ hit
    · simp only
      by_cases e : d' = d
      · subst e; rw [upd_same]; exact nodup_append_fst (a.once _)
      · rw [upd_ne _ _ e]; exact a.once _
    · have keep : b' ∈ (s.bases d').map (·.1) → b' ∈ (upd s.bases d (append (s.bases d) b f) d').map (·.1) := by
        intro hb
        by_cases e : d' = d
        · subst e; rw [upd_same]; exact mem_append_fst.2 (.inl hb)
        · rw [upd_ne _ _ e]; exact hb
      simp only [State.put]
      by_cases e : j = i
      · subst e
        rw [upd_same]
        rcases a.got j d' b' f' hj hm with h | h | h | h
        · exact .inl h
        · rw [hp] at h; cases h
        · rw [hp] at h; cases h
          refine .inr (.inr (.inr ?_))
          rw [upd_same]; exact mem_append_fst.2 (.inr rfl)
        · exact .inr (.inr (.inr (keep h)))
      · rw [upd_ne _ _ e]
        rcases a.got j d' b' f' hj hm with h | h | h | h
        · exact .inl h
        · exact .inr (.inl h)
        · exact .inr (.inr (.inl h))
        · exact .inr (.inr (.inr (keep h)))
  · rename_i n1 n2 n3 n4
    split at h
    · cases h
    · rename_i p' e
      cases h
      have := advance_no_add e
      refine move _ (fun r hr => hr) (fun d b f h => ?_) (fun d b f h => ?_)
      · rcases h with h | h
        · exact absurd h (this d b f).1
        · exact absurd h (this d b f).2.1
      · rcases h with h | h | h
        · exact .inl h
        · exact absurd h (n3 d b f)
        · exact absurd h (n4 d b f)

theorem Asked.run {n : Nat} {programs : Nat → List Req} {fair : Bool} {s : State} (a : Asked n programs s) (is : List Nat) :
    Asked n programs (run fair s is) := by
  induction is generalizing s with
  | nil => exact a
  | cons i is ih =>
    rw [CastRace.run]
    refine ih ?_
    cases e : CastRace.step fair s i with
    | none => exact a
    | some s' => exact a.step e

/-- the casts asked for -/
def casts (l : List Req) : List (Ptr × Ptr × Addr) := l.filterMap fun | .cast d t x => some (d, t, x) | _ => none

def Call.what (q : Call) : Ptr × Ptr × Addr := (q.d, q.t, q.x)

/-- the cast under way -/
def Pc.call : Pc → List (Ptr × Ptr × Addr)
  | .enter q _ _ _ => [q.what]
  | .items q _ _ _ _ => [q.what]
  | .test q _ _ _ _ _ _ _ _ _ => [q.what]
  | .unwind q _ _ => [q.what]
  | _ => []

def Thread.calls (t : Thread) : List (Ptr × Ptr × Addr) := t.answers.map (fun a => a.q.what) ++ t.pc.call ++ casts t.todo

theorem advance_call {g : Graph} {blocked : Ptr → Bool} {p p' : Pc} (e : advance g blocked p = some p') : p'.call = p.call := by
  cases p with
  | idle => cases e
  | want => cases e
  | hold => cases e
  | enter q c x outer =>
    simp only [advance] at e
    split at e
    · cases e; rfl
    · split at e
      · cases e
      · cases e; rfl
  | items q c x rest outer =>
    cases rest with
    | nil => cases e; rfl
    | cons it rest => obtain ⟨b, f⟩ := it; cases e; rfl
  | unwind q r outer =>
    cases outer with
    | nil => cases e
    | cons => cases e; rfl
  | test q c x b f rest outer a m fs =>
    cases m with
    | enter y =>
      simp only [advance] at e
      split at e
      · cases e; rfl
      · split at e
        · cases e
        · cases e; rfl
    | loop =>
      cases fs with
      | nil => cases e; rfl
      | cons fr fs =>
        obtain ⟨y, zs⟩ := fr
        cases zs <;> cases e <;> rfl
    | found => cases fs <;> cases e <;> rfl

/-- casts are answered in the order in which they are asked for, none is lost -/
theorem step_calls {fair : Bool} {s s' : State} {i : Nat} (h : step fair s i = some s') (j : Nat) :
    (s'.threads j).calls = (s.threads j).calls := by
  have move : ∀ t : Thread, t.calls = (s.threads i).calls → (upd s.threads i t j).calls = (s.threads j).calls := by
    intro t ht
    by_cases e : j = i
    · subst e; rw [upd_same]; exact ht
    · rw [upd_ne _ _ e]
  unfold CastRace.step at h
  split at h
  · cases h
  split at h
  · rename_i hp
    split at h
    · cases h
    · rename_i e; cases h; exact move _ (by simp [Thread.calls, Pc.call, hp, e, casts, Call.what])
    · rename_i e; cases h; exact move _ (by simp [Thread.calls, Pc.call, hp, e, casts])
  · rename_i e
    cases h; exact move _ (by simp [Thread.calls, Pc.call, e])
  · rename_i e
    split at h <;> cases h
    exact move _ (by simp [Thread.calls, Pc.call, e])
  · rename_i e
    cases h; exact move { s.threads i with pc := _ } (by simp [Thread.calls, Pc.call, e])
  · split at h
    · cases h
    · rename_i p' e
      cases h
      exact move _ (by simp [Thread.calls, advance_call e])

theorem run_calls {fair : Bool} (s : State) (is : List Nat) (j : Nat) : ((run fair s is).threads j).calls = (s.threads j).calls := by
  induction is generalizing s with
  | nil => rfl
  | cons i is ih =>
    rw [CastRace.run, ih]
    cases e : CastRace.step fair s i with
    | none => rfl
    | some s' => exact step_calls e j

/-! ### no class gets more bases than are asked for -/

def adds (l : List Req) : Nat := (l.map fun | .addBase _ _ _ => 1 | _ => 0).sum

def Pc.adding : Pc → Nat
  | .want _ _ _ => 1
  | .hold _ _ _ => 1
  | _ => 0

def pending (s : State) : Nat := ((List.range s.n).map fun i => adds (s.threads i).todo + (s.threads i).pc.adding).sum

def Few (B : Nat) (s : State) : Prop := ∀ c, (s.bases c).length + pending s ≤ B

theorem pending_put {s : State} {i : Nat} (hi : i < s.n) (t : Thread) :
    pending (s.put i t) + (adds (s.threads i).todo + (s.threads i).pc.adding) = pending s + (adds t.todo + t.pc.adding) := by
  have h2 := sum_change (f := fun i => adds (s.threads i).todo + (s.threads i).pc.adding)
    (f' := fun j => adds (upd s.threads i t j).todo + (upd s.threads i t j).pc.adding) hi (fun j hj => by rw [upd_ne _ _ hj])
  simp only [upd_same] at h2
  exact h2

theorem append_length (l : List (Ptr × Caster)) (b : Ptr) (f : Caster) : (append l b f).length ≤ l.length + 1 := by
  unfold append
  split <;> simp

theorem Few.step {B : Nat} {fair : Bool} {s s' : State} (w : Few B s) {i : Nat} (h : step fair s i = some s') : Few B s' := by
  unfold CastRace.step at h
  split at h
  · cases h
  rename_i hi
  have hi : i < s.n := Nat.lt_of_not_le hi
  have move : ∀ t : Thread, adds t.todo + t.pc.adding ≤ adds (s.threads i).todo + (s.threads i).pc.adding → Few B (s.put i t) := by
    intro t ht c
    have h1 := w c
    have h2 := pending_put hi t
    have h3 : (s.put i t).bases c = s.bases c := rfl
    rw [h3]
    omega
  split at h
  · rename_i hp
    split at h
    · cases h
    · rename_i e; cases h; refine move _ ?_; simp only [hp, e, adds, Pc.adding, List.map_cons, List.sum_cons]; omega
    · rename_i e; cases h; refine move _ ?_; simp only [hp, e, adds, Pc.adding, List.map_cons, List.sum_cons]; omega
  · rename_i e
    cases h; refine move _ ?_; simp [e, Pc.adding]
  · rename_i e
    split at h <;> cases h
    refine move _ ?_; simp [e, Pc.adding]
  · rename_i d b f e
    cases h
    intro c
    have h2 := pending_put hi { s.threads i with pc := .idle }
    rw [e] at h2
    have hadd : (Pc.hold d b f).adding = 1 := rfl
    have hidle : (Pc.idle).adding = 0 := rfl
    rw [hadd] at h2
    simp only [hidle] at h2
    have h3 : pending { s.put i { s.threads i with pc := .idle } with bases := upd s.bases d (append (s.bases d) b f) } =
      pending (s.put i { s.threads i with pc := .idle }) := rfl
    rw [h3]
    have h4 := w c
    have h5 : (upd s.bases d (append (s.bases d) b f) c).length ≤ (s.bases c).length + 1 := by
      by_cases hc : c = d
      · subst hc; rw [upd_same]; exact append_length ..
      · rw [upd_ne _ _ hc]; omega
    simp only
    omega
  · rename_i n1 n2 n3 n4
    split at h
    · cases h
    · rename_i p' e
      cases h
      have : p'.adding = 0 := by
        have := advance_no_add e
        cases p' with
        | want d b f => exact absurd rfl (this d b f).1
        | hold d b f => exact absurd rfl (this d b f).2.1
        | _ => rfl
      refine move _ ?_
      simp only [this]
      omega

theorem Few.init (n : Nat) (programs : Nat → List Req) : Few (pending (init n programs)) (init n programs) := fun _ => by
  simp [CastRace.init]

/-! ### the measure -/

/-- bound on the steps of `inheritedFrom` from a class of rank `r` on, if no class has more than `B` bases -/
def walkCost (B : Nat) : Nat → Nat
  | 0 => 2
  | r + 1 => 2 + B * (walkCost B r + 1)

/-- the same for `cast` -/
def castCost (B : Nat) : Nat → Nat
  | 0 => 6
  | r + 1 => 6 + B * (walkCost B r + 4) + castCost B r

/-- ... from the bases of such a class on -/
def upCost (B : Nat) : Nat → Nat
  | 0 => 0
  | r + 1 => castCost B r

theorem walkCost_ge (B r : Nat) : 2 ≤ walkCost B r := by cases r <;> simp [walkCost]
theorem castCost_ge (B r : Nat) : 6 ≤ castCost B r := by cases r <;> simp only [castCost] <;> omega

theorem walkCost_succ (B r : Nat) (hB : 0 < B) : walkCost B r ≤ walkCost B (r + 1) := by
  rw [walkCost]
  have : walkCost B r + 1 ≤ B * (walkCost B r + 1) := Nat.le_mul_of_pos_left _ hB
  omega

theorem walkCost_mono (B : Nat) (hB : 0 < B) {r r' : Nat} (h : r ≤ r') : walkCost B r ≤ walkCost B r' := by
  induction h with
  | refl => exact Nat.le_refl _
  | step _ ih => exact Nat.le_trans ih (walkCost_succ B _ hB)

theorem castCost_mono (B : Nat) {r r' : Nat} (h : r ≤ r') : castCost B r ≤ castCost B r' := by
  induction h with
  | refl => exact Nat.le_refl _
  | step _ ih => refine Nat.le_trans ih ?_; rw [castCost]; omega

theorem upCost_ge (B : Nat) {r r' : Nat} (h : r < r') : castCost B r ≤ upCost B r' := by
  cases r' with
  | zero => omega
  | succ r' => exact castCost_mono B (by omega)

def framesCost (rank : Ptr → Nat) (B : Nat) (fs : List (Ptr × List Ptr)) : Nat :=
  (fs.map fun fr => 1 + fr.2.length * (walkCost B (rank fr.1 - 1) + 1)).sum

def testCost (rank : Ptr → Nat) (B : Nat) (fs : List (Ptr × List Ptr)) : Test → Nat
  | .enter y => walkCost B (rank y) + framesCost rank B fs + 1
  | .loop => framesCost rank B fs + 1
  | .found => fs.length + 1

/-- from the items still to come in the `for_each` of a class of rank `r` on -/
def restCost (B r len out : Nat) : Nat := len * (walkCost B (r - 1) + 4) + upCost B r + out + 5

def pcCost (rank : Ptr → Nat) (B : Nat) : Pc → Nat
  | .idle => 0
  | .enter _ c _ outer => castCost B (rank c) + outer.length + 1
  | .items _ c _ rest outer => restCost B (rank c) rest.length outer.length
  | .test _ c _ _ _ rest outer _ m fs => testCost rank B fs m + restCost B (rank c) rest.length outer.length
  | .unwind _ _ outer => outer.length + 1
  | .want _ _ _ => 2
  | .hold _ _ _ => 1

def reqCost (rank : Ptr → Nat) (B : Nat) : Req → Nat
  | .cast d _ _ => castCost B (rank d) + 3
  | .addBase _ _ _ => 3

def threadCost (rank : Ptr → Nat) (B : Nat) (t : Thread) : Nat := pcCost rank B t.pc + (t.todo.map (reqCost rank B)).sum

def total (rank : Ptr → Nat) (B : Nat) (s : State) : Nat := ((List.range s.n).map fun i => threadCost rank B (s.threads i)).sum

theorem length_le_framesCost (rank : Ptr → Nat) (B : Nat) (fs : List (Ptr × List Ptr)) : fs.length ≤ framesCost rank B fs := by
  induction fs with
  | nil => exact Nat.le_refl _
  | cons f fs ih => simp only [framesCost, List.map_cons, List.sum_cons, List.length_cons] at ih ⊢; omega

theorem advance_cost {rank : Ptr → Nat} {g : Graph} {B : Nat} (edges : ∀ d, ∀ it ∈ g d, rank it.1 < rank d) (few : ∀ c, (g c).length ≤ B)
    {blocked : Ptr → Bool} {p p' : Pc} (h : PcOk rank g p) (e : advance g blocked p = some p') : pcCost rank B p' < pcCost rank B p := by
  have pos : ∀ {c : Ptr} {it : Ptr × Caster}, it ∈ g c → 0 < B := fun {c it} hm =>
    Nat.lt_of_lt_of_le (List.length_pos_of_mem hm) (few c)
  have zero : ∀ {c : Ptr}, rank c = 0 → g c = [] := fun {c} hc =>
    List.eq_nil_iff_forall_not_mem.2 fun it hm => by have := edges c it hm; omega
  cases p with
  | idle => cases e
  | want => cases e
  | hold => cases e
  | enter q c x outer =>
    have := castCost_ge B (rank c)
    simp only [advance] at e
    split at e
    · cases e; simp only [pcCost]; omega
    · split at e
      · cases e
      · cases e
        simp only [pcCost, restCost]
        cases hr : rank c with
        | zero => rw [zero hr]; simp [upCost, castCost]; omega
        | succ r =>
          have : (g c).length * (walkCost B r + 4) ≤ B * (walkCost B r + 4) := Nat.mul_le_mul_right _ (few c)
          simp only [upCost, castCost, Nat.add_sub_cancel]; omega
  | items q c x rest outer =>
    obtain ⟨h1, h2, h3, h4, _⟩ := h
    cases rest with
    | nil => cases e; simp only [pcCost, restCost, List.length_nil]; omega
    | cons it rest =>
      obtain ⟨b, f⟩ := it
      cases e
      have hm : (b, f) ∈ g c := h4.subset (List.mem_cons_self ..)
      have hlt := edges c _ hm
      have := walkCost_mono B (pos hm) (show rank b ≤ rank c - 1 by simp only at hlt; omega)
      simp only [pcCost, restCost, testCost, framesCost, List.length_cons, List.map_nil, List.sum_nil, Nat.add_mul, Nat.one_mul]
      omega
  | unwind q r outer =>
    cases outer with
    | nil => cases e
    | cons => cases e; simp [pcCost]
  | test q c x b f rest outer a m fs =>
    cases m with
    | enter y =>
      have hge := walkCost_ge B (rank y)
      have hl := length_le_framesCost rank B fs
      simp only [advance] at e
      split at e
      · cases e; simp only [pcCost, testCost]; omega
      · split at e
        · cases e
        · cases e
          have : ((g y).map (·.1)).length * (walkCost B (rank y - 1) + 1) + 1 < walkCost B (rank y) := by
            rw [List.length_map]
            cases hr : rank y with
            | zero => rw [zero hr]; simp [walkCost]
            | succ r =>
              have : (g y).length * (walkCost B r + 1) ≤ B * (walkCost B r + 1) := Nat.mul_le_mul_right _ (few y)
              simp only [walkCost, Nat.add_sub_cancel]; omega
          simp only [pcCost, testCost, framesCost, List.map_cons, List.sum_cons] at hl ⊢
          omega
    | loop =>
      cases fs with
      | nil => cases e; simp only [pcCost, testCost, framesCost, List.map_nil, List.sum_nil]; omega
      | cons fr fs =>
        obtain ⟨y, zs⟩ := fr
        cases zs with
        | nil => cases e; simp only [pcCost, testCost, framesCost, List.map_cons, List.sum_cons, List.length_nil]; omega
        | cons z zs =>
          cases e
          obtain ⟨f1, _⟩ := h.frames _ (List.mem_cons_self ..)
          obtain ⟨it, hit, hiz⟩ := List.mem_map.1 (f1.subset (List.mem_cons_self ..) : z ∈ (g y).map (·.1))
          have hlt := edges y it hit
          rw [hiz] at hlt
          have := walkCost_mono B (pos hit) (show rank z ≤ rank y - 1 by omega)
          simp only [pcCost, testCost, framesCost, List.map_cons, List.sum_cons, List.length_cons, Nat.add_mul, Nat.one_mul]
          omega
    | found =>
      cases fs with
      | nil =>
        cases e
        have hlt := edges c _ (h.suffix.subset (List.mem_cons_self ..))
        have := upCost_ge B hlt
        simp only [pcCost, testCost, restCost, List.length_cons, List.length_nil] at this ⊢
        omega
      | cons => cases e; simp only [pcCost, testCost, List.length_cons]; omega

theorem step_total {rank : Ptr → Nat} {B : Nat} {fair : Bool} {s s' : State} (o : Ok rank s) (w : Few B s) {i : Nat}
    (h : step fair s i = some s') : total rank B s' < total rank B s := by
  unfold CastRace.step at h
  split at h
  · cases h
  rename_i hi
  have hi : i < s.n := Nat.lt_of_not_le hi
  have key : ∀ t : Thread, threadCost rank B t < threadCost rank B (s.threads i) → total rank B (s.put i t) < total rank B s := by
    intro t ht
    have h2 := sum_change (f := fun i => threadCost rank B (s.threads i)) (f' := fun j => threadCost rank B (upd s.threads i t j)) hi
      (fun j hj => by rw [upd_ne _ _ hj])
    simp only [upd_same] at h2
    have h3 : total rank B (s.put i t) = ((List.range s.n).map fun j => threadCost rank B (upd s.threads i t j)).sum := rfl
    rw [h3, total]
    omega
  split at h
  · rename_i hp
    split at h
    · cases h
    · rename_i e; cases h; refine key _ ?_
      simp only [threadCost, pcCost, hp, e, List.map_cons, List.sum_cons, reqCost, List.length_nil]; omega
    · rename_i e; cases h; refine key _ ?_
      simp only [threadCost, pcCost, hp, e, List.map_cons, List.sum_cons, reqCost]; omega
  · rename_i e
    cases h; refine key _ ?_; simp [threadCost, pcCost, e]
  · rename_i e
    split at h <;> cases h
    refine key _ ?_; simp [threadCost, pcCost, e]
  · rename_i d b f e
    cases h
    exact key { s.threads i with pc := .idle } (by simp [threadCost, pcCost, e])
  · split at h
    · cases h
    · rename_i p' e
      cases h
      refine key _ ?_
      have := advance_cost (B := B) o.edges (fun c => by have := w c; omega) (o.pc i) e
      simp only [threadCost]
      omega

/-- the steps of a schedule in which a thread moves -/
def moves (fair : Bool) (s : State) : List Nat → Nat
  | [] => 0
  | i :: is => match step fair s i with
    | some s' => moves fair s' is + 1
    | none => moves fair s is

theorem moves_le {rank : Ptr → Nat} {B : Nat} {fair : Bool} {s : State} (o : Ok rank s) (w : Few B s) (is : List Nat) :
    moves fair s is ≤ total rank B s := by
  induction is generalizing s with
  | nil => exact Nat.zero_le _
  | cons i is ih =>
    rw [moves]
    cases e : step fair s i with
    | none => exact ih o w
    | some s' =>
      have h1 := ih (o.step e) (w.step e)
      have h2 := step_total o w e
      simp only; omega

end Rtti.CastRace
