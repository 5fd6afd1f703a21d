import Verif.Lemmas.WalkRace
/-! Everything comes to an end: a measure that each step decreases, and what was asked for is done. -/
set_option autoImplicit false
namespace Rtti.WalkRace

/-- what is asked for, what is under way and what is there -/
structure Asked (n : Nat) (programs : Nat → List Req) (s : State) : Prop where
  num : s.n = n
  todo : ∀ i r, r ∈ (s.threads i).todo → r ∈ programs i
  pc : ∀ i d b, (s.threads i).pc = .want d b ∨ (s.threads i).pc = .hold d b ∨ (s.threads i).pc = .derive d b → .addBase d b ∈ programs i
  base : ∀ d b, b ∈ s.bases d → ∃ i, i < n ∧ Req.addBase d b ∈ programs i
  got : ∀ i d b, i < n → .addBase d b ∈ programs i → .addBase d b ∈ (s.threads i).todo ∨ (s.threads i).pc = .want d b ∨
    (s.threads i).pc = .hold d b ∨ b ∈ s.bases d

theorem Asked.init (n : Nat) (programs : Nat → List Req) : Asked n programs (init n programs) :=
  ⟨rfl, fun _ _ h => h, fun _ _ _ h => (by rcases h with h | h | h <;> cases h), fun _ _ h => (by cases h), fun _ _ _ _ h => .inl h⟩

theorem Asked.step {n : Nat} {programs : Nat → List Req} {fair : Bool} {s s' : State} (a : Asked n programs s) {i : Nat}
    (h : step fair s i = some s') : Asked n programs s' := by
  have move : ∀ t : Thread, (∀ r ∈ t.todo, r ∈ (s.threads i).todo) →
      (∀ d b, t.pc = .want d b ∨ t.pc = .hold d b ∨ t.pc = .derive d b → .addBase d b ∈ programs i) →
      (∀ d b, .addBase d b ∈ (s.threads i).todo ∨ (s.threads i).pc = .want d b ∨ (s.threads i).pc = .hold d b →
        .addBase d b ∈ t.todo ∨ t.pc = .want d b ∨ t.pc = .hold d b) →
      Asked n programs { s with threads := upd s.threads i t } := by
    intro t h1 h2 h3
    refine ⟨a.num, fun j r hr => ?_, fun j d b hj => ?_, a.base, fun j d b hj hm => ?_⟩
    · simp only at hr
      by_cases e : j = i
      · subst e; rw [upd_same] at hr; exact a.todo j r (h1 r hr)
      · rw [upd_ne _ _ e] at hr; exact a.todo j r hr
    · simp only at hj
      by_cases e : j = i
      · subst e; rw [upd_same] at hj; exact h2 d b hj
      · rw [upd_ne _ _ e] at hj; exact a.pc j d b hj
    · simp only
      by_cases e : j = i
      · subst e
        rw [upd_same]
        rcases a.got j d b hj hm with h | h | h | h
        · rcases h3 d b (.inl h) with h | h | h <;> simp [h]
        · rcases h3 d b (.inr (.inl h)) with h | h | h <;> simp [h]
        · rcases h3 d b (.inr (.inr h)) with h | h | h <;> simp [h]
        · exact .inr (.inr (.inr h))
      · rw [upd_ne _ _ e]; exact a.got j d b hj hm
  unfold WalkRace.step at h
  split at h
  · cases h
  rename_i hi
  rw [a.num] at hi
  have quiet : ∀ t : Thread, t.todo = (s.threads i).todo → (∀ d b, t.pc ≠ .want d b ∧ t.pc ≠ .hold d b ∧ t.pc ≠ .derive d b) →
      (∀ d b, (s.threads i).pc ≠ .want d b ∧ (s.threads i).pc ≠ .hold d b) → Asked n programs { s with threads := upd s.threads i t } := by
    intro t h1 h2 h3
    refine move t (fun r hr => h1 ▸ hr) (fun d b h => ?_) (fun d b h => ?_)
    · rcases h with h | h | h
      · exact absurd h (h2 d b).1
      · exact absurd h (h2 d b).2.1
      · exact absurd h (h2 d b).2.2
    · rcases h with h | h | h
      · rw [h1]; exact .inl h
      · exact absurd h (h3 d b).1
      · exact absurd h (h3 d b).2
  split at h
  · rename_i hp
    split at h
    · cases h
    · rename_i d hit rest e
      cases h
      refine move _ (fun r hr => by rw [e]; exact List.mem_cons_of_mem _ hr) (fun d b h => by rcases h with h | h | h <;> cases h) (fun d b h => ?_)
      rw [e, hp] at h
      rcases h with h | h | h
      · rcases List.mem_cons.1 h with h | h
        · cases h
        · exact .inl h
      · cases h
      · cases h
    · rename_i d b rest e
      cases h
      refine move _ (fun r hr => by rw [e]; exact List.mem_cons_of_mem _ hr) (fun d' b' h => ?_) (fun d' b' h => ?_)
      · rcases h with h | h | h <;> cases h
        exact a.todo i _ (by rw [e]; exact List.mem_cons_self ..)
      · rw [e, hp] at h
        rcases h with h | h | h
        · rcases List.mem_cons.1 h with h | h
          · cases h; exact .inr (.inl rfl)
          · exact .inl h
        · cases h
        · cases h
  · rename_i q c fs e
    have h3 : ∀ d b, (s.threads i).pc ≠ .want d b ∧ (s.threads i).pc ≠ .hold d b := fun d b => by rw [e]; exact ⟨nofun, nofun⟩
    split at h
    · cases h; exact quiet _ rfl (fun d b => ⟨nofun, nofun, nofun⟩) h3
    · split at h
      · cases h
      · cases h; exact quiet _ rfl (fun d b => ⟨nofun, nofun, nofun⟩) h3
  · rename_i q fs e
    have h3 : ∀ d b, (s.threads i).pc ≠ .want d b ∧ (s.threads i).pc ≠ .hold d b := fun d b => by rw [e]; exact ⟨nofun, nofun⟩
    split at h <;> cases h <;> exact quiet _ rfl (fun d b => ⟨nofun, nofun, nofun⟩) h3
  · rename_i q c fs e
    have h3 : ∀ d b, (s.threads i).pc ≠ .want d b ∧ (s.threads i).pc ≠ .hold d b := fun d b => by rw [e]; exact ⟨nofun, nofun⟩
    split at h <;> cases h <;> exact quiet _ rfl (fun d b => ⟨nofun, nofun, nofun⟩) h3
  · rename_i d b e
    split at h
    · cases h
    · cases h
      refine move _ (fun r hr => hr) (fun d' b' h => ?_) (fun d' b' h => ?_)
      · rcases h with h | h | h <;> cases h
        exact a.pc i d b (.inl e)
      · rw [e] at h
        rcases h with h | h | h
        · exact .inl h
        · cases h; exact .inr (.inr rfl)
        · cases h
  · rename_i d b e
    cases h
    have hask := a.pc i d b (.inr (.inl e))
    refine ⟨a.num, fun j r hr => ?_, fun j d' b' hj => ?_, fun d' b' hb => ?_, fun j d' b' hj hm => ?_⟩
    · simp only [State.put] at hr
      by_cases e : j = i
      · subst e; rw [upd_same] at hr; exact a.todo j r hr
      · rw [upd_ne _ _ e] at hr; exact a.todo j r hr
    · simp only [State.put] at hj
      by_cases e : j = i
      · subst e
        rw [upd_same] at hj
        rcases hj with h | h | h <;> cases h
        exact hask
      · rw [upd_ne _ _ e] at hj; exact a.pc j d' b' hj
    · simp only at hb
      by_cases h : d' = d
      · subst h
        rw [upd_same] at hb
        rcases mem_append'.1 hb with hb | rfl
        · exact a.base _ _ hb
        · exact ⟨i, Nat.lt_of_not_le hi, hask⟩
      · rw [upd_ne _ _ h] at hb; exact a.base _ _ hb
    · have up : b' ∈ s.bases d' → b' ∈ upd s.bases d (append (s.bases d) b) d' := by
        intro hb
        by_cases h : d' = d
        · subst h; rw [upd_same]; exact mem_append'.2 (.inl hb)
        · rw [upd_ne _ _ h]; exact hb
      simp only [State.put]
      by_cases hji : j = i
      · subst hji
        rw [upd_same]
        rcases a.got j d' b' hj hm with h | h | h | h
        · exact .inl h
        · rw [e] at h; cases h
        · rw [e] at h; cases h
          exact .inr (.inr (.inr (by rw [upd_same]; exact mem_append'.2 (.inr rfl))))
        · exact .inr (.inr (.inr (up h)))
      · rw [upd_ne _ _ hji]
        rcases a.got j d' b' hj hm with h | h | h | h
        · exact .inl h
        · exact .inr (.inl h)
        · exact .inr (.inr (.inl h))
        · exact .inr (.inr (.inr (up h)))
  · rename_i d b e
    cases h
    have h3 : ∀ d b, (s.threads i).pc ≠ .want d b ∧ (s.threads i).pc ≠ .hold d b := fun d b => by rw [e]; exact ⟨nofun, nofun⟩
    have := quiet { s.threads i with pc := .idle } rfl (fun d b => ⟨nofun, nofun, nofun⟩) h3
    exact ⟨this.num, this.todo, this.pc, this.base, this.got⟩

theorem Asked.run {n : Nat} {programs : Nat → List Req} {fair : Bool} {s : State} (a : Asked n programs s) (is : List Nat) :
    Asked n programs (run fair s is) := by
  induction is generalizing s with
  | nil => exact a
  | cons i is ih =>
    rw [WalkRace.run]
    refine ih ?_
    cases e : WalkRace.step fair s i with
    | none => exact a
    | some s' => exact a.step e

/-- the walks asked for -/
def finds (l : List Req) : List (Ptr × (Ptr → Bool)) := l.filterMap fun | .find d hit => some (d, hit) | _ => none

/-- the walk under way -/
def Pc.walk : Pc → List (Ptr × (Ptr → Bool))
  | .enter q _ _ => [(q.d, q.hit)]
  | .loop q _ => [(q.d, q.hit)]
  | .unwind q _ _ => [(q.d, q.hit)]
  | _ => []

def Thread.walks (t : Thread) : List (Ptr × (Ptr → Bool)) := t.results.map (fun r => (r.1.d, r.1.hit)) ++ t.pc.walk ++ finds t.todo

/-- walks are answered in the order in which they are asked for, none is lost -/
theorem step_walks {fair : Bool} {s s' : State} {i : Nat} (h : step fair s i = some s') (j : Nat) :
    (s'.threads j).walks = (s.threads j).walks := by
  have move : ∀ t : Thread, t.walks = (s.threads i).walks → (upd s.threads i t j).walks = (s.threads j).walks := by
    intro t ht
    by_cases e : j = i
    · subst e; rw [upd_same]; exact ht
    · rw [upd_ne _ _ e]
  unfold WalkRace.step at h
  split at h
  · cases h
  split at h
  · rename_i hp
    split at h
    · cases h
    · rename_i e; cases h; exact move _ (by simp [Thread.walks, Pc.walk, hp, e, finds])
    · rename_i e; cases h; exact move _ (by simp [Thread.walks, Pc.walk, hp, e, finds])
  · rename_i e
    split at h
    · cases h; exact move _ (by simp [Thread.walks, Pc.walk, e])
    · split at h
      · cases h
      · cases h; exact move _ (by simp [Thread.walks, Pc.walk, e])
  · rename_i e
    split at h <;> cases h <;> exact move _ (by simp [Thread.walks, Pc.walk, e])
  · rename_i e
    split at h <;> cases h <;> exact move _ (by simp [Thread.walks, Pc.walk, e])
  · rename_i e
    split at h <;> cases h
    exact move _ (by simp [Thread.walks, Pc.walk, e])
  · rename_i e
    cases h; exact move { s.threads i with pc := _ } (by simp [Thread.walks, Pc.walk, e])
  · rename_i e
    cases h; exact move { s.threads i with pc := _ } (by simp [Thread.walks, Pc.walk, e])

theorem run_walks {fair : Bool} (s : State) (is : List Nat) (j : Nat) : ((run fair s is).threads j).walks = (s.threads j).walks := by
  induction is generalizing s with
  | nil => rfl
  | cons i is ih =>
    rw [WalkRace.run, ih]
    cases e : WalkRace.step fair s i with
    | none => rfl
    | some s' => exact step_walks e j

/-! ### the measure -/

/-- all bases that will ever be declared -/
def allBases (n : Nat) (programs : Nat → List Req) : Graph := fun d =>
  (List.range n).flatMap fun i => (programs i).filterMap fun | .addBase d' b => if d' = d then some b else none | _ => none

theorem mem_allBases {n : Nat} {programs : Nat → List Req} {d b : Ptr} :
    b ∈ allBases n programs d ↔ ∃ i, i < n ∧ Req.addBase d b ∈ programs i := by
  simp only [allBases, List.mem_flatMap, List.mem_range, List.mem_filterMap]
  constructor
  · rintro ⟨i, hi, r, hr, h⟩
    cases r with
    | find => cases h
    | addBase d' b' =>
      simp only at h
      split at h
      · rename_i e; cases h; exact ⟨i, hi, e ▸ hr⟩
      · cases h
  · rintro ⟨i, hi, hr⟩
    exact ⟨i, hi, _, hr, by simp⟩

/-- the steps of a walk from `c`, with `fuel` for the depth -/
def cost (g : Graph) : Nat → Ptr → Nat
  | 0, _ => 3
  | n + 1, c => 3 + ((g c).map fun x => cost g n x + 1).sum

theorem sum_mono {l : List Ptr} {f g : Ptr → Nat} (h : ∀ x ∈ l, f x ≤ g x) : (l.map f).sum ≤ (l.map g).sum := by
  induction l with
  | nil => simp
  | cons x l ih =>
    have h1 := h x (List.mem_cons_self ..)
    have h2 := ih fun y hy => h y (List.mem_cons_of_mem _ hy)
    simp only [List.map_cons, List.sum_cons]; omega

theorem sum_subset {l l' : List Ptr} (f : Ptr → Nat) (hn : l.Nodup) (h : ∀ x ∈ l, x ∈ l') : (l.map f).sum ≤ (l'.map f).sum := by
  induction l generalizing l' with
  | nil => simp
  | cons x l ih =>
    have hx := h x (List.mem_cons_self ..)
    have hp := (List.perm_cons_erase hx).map f
    rw [hp.sum_nat, List.map_cons, List.map_cons, List.sum_cons, List.sum_cons]
    have := ih (List.nodup_cons.1 hn).2 (l' := l'.erase x) fun y hy =>
      (List.mem_erase_of_ne (b := x) fun e : y = x => (List.nodup_cons.1 hn).1 (e ▸ hy)).2 (h y (List.mem_cons_of_mem _ hy))
    omega

theorem cost_succ (g : Graph) (n : Nat) (c : Ptr) : cost g n c ≤ cost g (n + 1) c := by
  induction n generalizing c with
  | zero => simp [cost]
  | succ n ih =>
    rw [cost, cost]
    exact Nat.add_le_add_left (sum_mono fun x _ => Nat.add_le_add_right (ih x) 1) 3

theorem cost_le (g : Graph) {n m : Nat} (h : n ≤ m) (c : Ptr) : cost g n c ≤ cost g m c := by
  induction h with
  | refl => exact Nat.le_refl _
  | step _ ih => exact Nat.le_trans ih (cost_succ g _ c)

/-- cost of a walk from `c` -/
def walkCost (rank : Ptr → Nat) (g : Graph) (c : Ptr) : Nat := cost g (rank c) c

theorem walkCost_ge (rank : Ptr → Nat) (g : Graph) (hg : ∀ d, ∀ b ∈ g d, rank b < rank d) (c : Ptr) :
    3 + ((g c).map fun x => walkCost rank g x + 1).sum ≤ walkCost rank g c := by
  unfold walkCost
  cases e : rank c with
  | zero =>
    have : g c = [] := List.eq_nil_iff_forall_not_mem.2 fun x hx => by have := hg c x hx; omega
    simp [this, cost]
  | succ n =>
    rw [cost]
    refine Nat.add_le_add_left (sum_mono fun x hx => Nat.add_le_add_right (cost_le g ?_ x) 1) 3
    have := hg c x hx; omega

def framesCost (rank : Ptr → Nat) (g : Graph) (fs : List (Ptr × List Ptr)) : Nat :=
  (fs.map fun f => 1 + (f.2.map fun x => walkCost rank g x + 1).sum).sum

def pcCost (rank : Ptr → Nat) (g : Graph) : Pc → Nat
  | .idle => 0
  | .enter _ c fs => walkCost rank g c + framesCost rank g fs
  | .loop _ fs => 1 + framesCost rank g fs
  | .unwind _ _ fs => 1 + fs.length
  | .want _ _ => 3
  | .hold _ _ => 2
  | .derive _ _ => 1

def reqCost (rank : Ptr → Nat) (g : Graph) : Req → Nat
  | .find d _ => walkCost rank g d + 1
  | .addBase _ _ => 4

def threadCost (rank : Ptr → Nat) (g : Graph) (t : Thread) : Nat := pcCost rank g t.pc + (t.todo.map (reqCost rank g)).sum

def total (rank : Ptr → Nat) (g : Graph) (s : State) : Nat := ((List.range s.n).map fun i => threadCost rank g (s.threads i)).sum

theorem length_le_framesCost (rank : Ptr → Nat) (g : Graph) (fs : List (Ptr × List Ptr)) : fs.length ≤ framesCost rank g fs := by
  induction fs with
  | nil => simp
  | cons f fs ih => simp only [framesCost, List.map_cons, List.sum_cons, List.length_cons] at ih ⊢; omega

theorem sum_upd {f f' : Nat → Nat} {i n : Nat} (hi : i < n) (h : f' i < f i) (ho : ∀ j, j ≠ i → f' j = f j) :
    ((List.range n).map f').sum < ((List.range n).map f).sum := by
  induction n with
  | zero => omega
  | succ n ih =>
    simp only [List.range_succ, List.map_append, List.map_cons, List.map_nil, List.sum_append, List.sum_cons, List.sum_nil]
    by_cases e : i = n
    · have : (List.range n).map f' = (List.range n).map f :=
        List.map_congr_left fun j hj => ho j (by have := List.mem_range.1 hj; omega)
      rw [this]; subst e; omega
    · have := ih (by omega)
      rw [ho n (Ne.symm e)]; omega

theorem step_total {rank : Ptr → Nat} {n : Nat} {programs : Nat → List Req} {fair : Bool} {s s' : State} (o : Ok rank s) (a : Asked n programs s)
    (hr : ∀ i, TodoOk rank (programs i)) {i : Nat} (h : step fair s i = some s') :
    total rank (allBases n programs) s' < total rank (allBases n programs) s := by
  generalize hg : allBases n programs = g
  have hge : ∀ d, ∀ b ∈ g d, rank b < rank d := by
    intro d b hb
    rw [← hg] at hb
    obtain ⟨i, _, h⟩ := mem_allBases.1 hb
    exact hr i d b h
  have hsub : ∀ d, ∀ b ∈ s.bases d, b ∈ g d := fun d b hb => by rw [← hg]; exact mem_allBases.2 (a.base d b hb)
  have key : ∀ t : Thread, i < s.n → threadCost rank g t < threadCost rank g (s.threads i) →
      total rank g { s with threads := upd s.threads i t } < total rank g s := by
    intro t hi h
    refine sum_upd hi ?_ fun j hj => ?_
    · simpa using h
    · simp only [upd_ne _ _ hj]
  have same : ∀ s2 : State, s2.n = s.n → ∀ t, s2.threads = upd s.threads i t →
      total rank g s2 = total rank g { s with threads := upd s.threads i t } := by
    intro s2 h1 t h2; simp only [total, h1, h2]
  unfold WalkRace.step at h
  split at h
  · cases h
  rename_i hi
  have hi : i < s.n := Nat.lt_of_not_le hi
  split at h
  · rename_i hp
    split at h
    · cases h
    · rename_i d hit rest e
      cases h
      refine key _ hi ?_
      simp only [threadCost, pcCost, hp, e, List.map_cons, List.sum_cons, reqCost, framesCost, List.map_nil, List.sum_nil]; omega
    · rename_i d b rest e
      cases h
      refine key _ hi ?_
      simp only [threadCost, pcCost, hp, e, List.map_cons, List.sum_cons, reqCost]; omega
  · rename_i q c fs e
    have hw := walkCost_ge rank g hge c
    have hl := length_le_framesCost rank g fs
    split at h
    · cases h
      refine key _ hi ?_
      simp only [threadCost, pcCost, e]; omega
    · split at h
      · cases h
      · cases h
        refine key _ hi ?_
        have := sum_subset (fun x => walkCost rank g x + 1) (o.nodup c).1 (hsub c)
        simp only [threadCost, pcCost, e, framesCost, List.map_cons, List.sum_cons]; omega
  · rename_i q fs e
    split at h <;> cases h <;> refine key _ hi ?_ <;>
      simp only [threadCost, pcCost, e, framesCost, List.map_cons, List.sum_cons, List.map_nil, List.sum_nil] <;> omega
  · rename_i q c fs e
    split at h <;> cases h <;> refine key _ hi ?_ <;>
      simp only [threadCost, pcCost, e, List.length_cons] <;> omega
  · rename_i d b e
    split at h
    · cases h
    · cases h
      refine key _ hi ?_
      simp only [threadCost, pcCost, e]; omega
  · rename_i d b e
    cases h
    refine Nat.lt_of_le_of_lt (Nat.le_of_eq (same { s.put i (.derive d b) with bases := upd s.bases d (append (s.bases d) b) } rfl { s.threads i with pc := .derive d b } rfl)) (key _ hi ?_)
    simp only [threadCost, pcCost, e]; omega
  · rename_i d b e
    cases h
    refine Nat.lt_of_le_of_lt (Nat.le_of_eq (same { s.put i .idle with derived := upd s.derived b (append (s.derived b) d) } rfl { s.threads i with pc := .idle } rfl)) (key _ hi ?_)
    simp only [threadCost, pcCost, e]; omega

/-- the steps of a schedule in which a thread moves -/
def moves (fair : Bool) (s : State) : List Nat → Nat
  | [] => 0
  | i :: is => match step fair s i with
    | some s' => moves fair s' is + 1
    | none => moves fair s is

theorem moves_le {rank : Ptr → Nat} {n : Nat} {programs : Nat → List Req} {fair : Bool} {s : State} (o : Ok rank s) (a : Asked n programs s)
    (hr : ∀ i, TodoOk rank (programs i)) (is : List Nat) : moves fair s is ≤ total rank (allBases n programs) s := by
  induction is generalizing s with
  | nil => exact Nat.zero_le _
  | cons i is ih =>
    rw [moves]
    cases e : step fair s i with
    | none => exact ih o a
    | some s' =>
      have h1 := ih (o.step e) (a.step e)
      have h2 := step_total o a hr e
      simp only; omega

end Rtti.WalkRace
