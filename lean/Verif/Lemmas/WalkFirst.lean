import Verif.Lemmas.WalkRaceEnd
/-! Which class a walk finds if no base is declared meanwhile. -/
set_option autoImplicit false
namespace Rtti.WalkRace

/-- no hit at `c` or above -/
def NoHit (g : Graph) (hit : Ptr → Bool) (c : Ptr) : Prop := ∀ t, Leads g c t → hit t = false

/-- depth first, in the order of declaration: `t` is the first hit from `c` on -/
inductive FirstHit (g : Graph) (hit : Ptr → Bool) : Ptr → Ptr → Prop
  | here {c : Ptr} : hit c = true → FirstHit g hit c c
  | up {c t : Ptr} (pre : List Ptr) (b : Ptr) (post : List Ptr) : hit c = false → g c = pre ++ b :: post →
      (∀ p ∈ pre, NoHit g hit p) → FirstHit g hit b t → FirstHit g hit c t

theorem FirstHit.leads {g : Graph} {hit : Ptr → Bool} {c t : Ptr} (h : FirstHit g hit c t) : hit t = true ∧ Leads g c t := by
  induction h with
  | here h => exact ⟨h, .refl _⟩
  | up pre b post _ e _ _ ih => exact ⟨ih.1, .step (by rw [e]; simp) ih.2⟩

/-- there is at most one -/
theorem FirstHit.unique {g : Graph} {hit : Ptr → Bool} {c t : Ptr} (h : FirstHit g hit c t) : ∀ {t'}, FirstHit g hit c t' → t = t' := by
  induction h with
  | here h =>
    intro t' h'
    cases h' with
    | here => rfl
    | up _ _ _ hn => rw [h] at hn; cases hn
  | up pre b post hn e hp hb ih =>
    intro t' h'
    cases h' with
    | here h => rw [h] at hn; cases hn
    | up pre' b' post' _ e' hp' hb' =>
      have : b = b' := by
        have n1 : ¬NoHit g hit b := fun h => by have := hb.leads; rw [h _ this.2] at this; cases this.1
        have n2 : ¬NoHit g hit b' := fun h => by have := hb'.leads; rw [h _ this.2] at this; cases this.1
        rw [e] at e'
        clear ih e hb hb'
        induction pre generalizing pre' with
        | nil =>
          cases pre' with
          | nil => simp at e'; exact e'.1
          | cons p ps => simp at e'; exact absurd (hp' p (List.mem_cons_self ..)) (e'.1 ▸ n1)
        | cons p ps ih =>
          cases pre' with
          | nil => simp at e'; exact absurd (hp p (List.mem_cons_self ..)) (e'.1 ▸ n2)
          | cons p' ps' =>
            simp at e'
            exact ih (fun a ha => hp a (List.mem_cons_of_mem _ ha)) ps' (fun a ha => hp' a (List.mem_cons_of_mem _ ha)) e'.2
      subst this
      exact ih hb'

/-- what was passed over in the list of `c` before `rest` has no hit -/
def PassedIn (g : Graph) (hit : Ptr → Bool) (c : Ptr) (rest : List Ptr) : Prop :=
  hit c = false ∧ ∃ pre, g c = pre ++ rest ∧ ∀ p ∈ pre, NoHit g hit p

/-- the frames lead from the class asked to `x`, and nothing was missed -/
def Chain (g : Graph) (q : Walk) : Ptr → List (Ptr × List Ptr) → Prop
  | x, [] => x = q.d
  | x, (c, rest) :: fs => PassedIn g q.hit c (x :: rest) ∧ Chain g q c fs

def PcFirst (g : Graph) : Pc → Prop
  | .enter q c fs => q.start = g → Chain g q c fs
  | .loop q [] => q.start = g → NoHit g q.hit q.d
  | .loop q ((c, rest) :: fs) => q.start = g → PassedIn g q.hit c rest ∧ Chain g q c fs
  | .unwind q c _ => q.start = g → FirstHit g q.hit q.d c
  | _ => True

def ResultFirst (g : Graph) (r : Walk × Option Ptr) : Prop :=
  r.1.start = g → match r.2 with
    | some c => FirstHit g r.1.hit r.1.d c
    | none => NoHit g r.1.hit r.1.d

theorem Chain.first {g : Graph} {q : Walk} {t : Ptr} : ∀ {fs : List (Ptr × List Ptr)} {x : Ptr}, Chain g q x fs → FirstHit g q.hit x t →
    FirstHit g q.hit q.d t := by
  intro fs
  induction fs with
  | nil => intro x h hf; rw [← show x = q.d from h]; exact hf
  | cons fr fs ih =>
    obtain ⟨c, rest⟩ := fr
    intro x ⟨⟨h1, pre, h2, h3⟩, h4⟩ hf
    exact ih h4 (.up pre x rest h1 h2 h3 hf)

theorem grown_eq {g g' g'' : Graph} (h : ∀ c, g c <+: g' c) (h' : ∀ c, g' c <+: g'' c) (e : g = g'') : g' = g'' :=
  funext fun c => (h' c).eq_of_length_le (by rw [← e]; exact (h c).length_le)

/-- the walk a thread is in -/
def Pc.cur : Pc → Option Walk
  | .enter q _ _ => some q
  | .loop q _ => some q
  | .unwind q _ _ => some q
  | _ => none

structure Fst (s : State) : Prop where
  pc : ∀ i, PcFirst s.bases (s.threads i).pc
  results : ∀ i, ∀ r ∈ (s.threads i).results, ResultFirst s.bases r
  oldPc : ∀ i q, (s.threads i).pc.cur = some q → ∀ c, q.start c <+: s.bases c
  oldResults : ∀ i, ∀ r ∈ (s.threads i).results, ∀ c, r.1.start c <+: s.bases c

theorem Fst.init (n : Nat) (programs : Nat → List Req) : Fst (init n programs) :=
  ⟨fun _ => trivial, fun _ _ h => (by cases h), fun _ _ h => (by cases h), fun _ _ h => (by cases h)⟩

theorem Fst.move {s : State} (o : Fst s) {i : Nat} (t : Thread) (hp : PcFirst s.bases t.pc) (hr : ∀ r ∈ t.results, ResultFirst s.bases r)
    (op : ∀ q, t.pc.cur = some q → ∀ c, q.start c <+: s.bases c) (or' : ∀ r ∈ t.results, ∀ c, r.1.start c <+: s.bases c) :
    Fst { s with threads := upd s.threads i t } := by
  refine ⟨fun j => ?_, fun j => ?_, fun j => ?_, fun j => ?_⟩ <;> simp only <;> by_cases h : j = i
  · subst h; rw [upd_same]; exact hp
  · rw [upd_ne _ _ h]; exact o.pc j
  · subst h; rw [upd_same]; exact hr
  · rw [upd_ne _ _ h]; exact o.results j
  · subst h; rw [upd_same]; exact op
  · rw [upd_ne _ _ h]; exact o.oldPc j
  · subst h; rw [upd_same]; exact or'
  · rw [upd_ne _ _ h]; exact o.oldResults j

theorem PcFirst.mono {g g' : Graph} (hs : ∀ c, g c <+: g' c) {p : Pc} (ho : ∀ q, p.cur = some q → ∀ c, q.start c <+: g c) (h : PcFirst g p) :
    PcFirst g' p := by
  have same : ∀ q, p.cur = some q → q.start = g' → g = g' := fun q hq e => grown_eq (ho q hq) hs e
  cases p with
  | enter q c fs => intro e; have := same q rfl e; subst this; exact h e
  | loop q fs =>
    cases fs with
    | nil => intro e; have := same q rfl e; subst this; exact h e
    | cons fr fs => obtain ⟨c, rest⟩ := fr; intro e; have := same q rfl e; subst this; exact h e
  | unwind q c fs => intro e; have := same q rfl e; subst this; exact h e
  | _ => trivial

theorem Fst.step {fair : Bool} {s s' : State} (o : Fst s) {i : Nat} (h : step fair s i = some s') : Fst s' := by
  have hpc := o.pc i
  have hres := o.results i
  have hold := o.oldPc i
  have hor := o.oldResults i
  unfold WalkRace.step at h
  split at h
  · cases h
  split at h
  · split at h
    · cases h
    · cases h
      exact o.move _ (fun _ => rfl) hres (fun q hq c => by cases hq; exact List.prefix_refl _) hor
    · cases h
      exact o.move _ trivial hres nofun hor
  · -- enter
    rename_i q c fs e
    rw [e] at hpc hold
    split at h
    · rename_i hit
      cases h
      exact o.move _ (fun e => (hpc e).first (.here hit)) hres (fun q hq => by cases hq; exact hold _ rfl) hor
    · rename_i hit
      split at h
      · cases h
      · cases h
        refine o.move _ (fun e => ⟨⟨by simpa using hit, [], rfl, nofun⟩, hpc e⟩) hres (fun q hq => by cases hq; exact hold _ rfl) hor
  · -- loop
    rename_i q fs e
    rw [e] at hpc hold
    split at h
    · cases h
      refine o.move _ trivial ?_ nofun ?_
      · intro r hr
        rcases List.mem_append.1 hr with hr | hr
        · exact hres r hr
        · cases List.mem_singleton.1 hr; exact hpc
      · intro r hr
        rcases List.mem_append.1 hr with hr | hr
        · exact hor r hr
        · cases List.mem_singleton.1 hr; exact hold _ rfl
    · rename_i c fs
      cases h
      refine o.move _ ?_ hres (fun q hq => by cases hq; exact hold _ rfl) hor
      have none_here : q.start = s.bases → NoHit s.bases q.hit c := by
        intro e t ht
        obtain ⟨⟨h1, pre, h2, h3⟩, _⟩ := hpc e
        cases ht with
        | refl => exact h1
        | step hm ht =>
          rw [List.append_nil] at h2
          rw [h2] at hm
          exact h3 _ hm t ht
      cases fs with
      | nil =>
        intro e
        have h4 := (hpc e).2
        rw [← show c = q.d from h4]; exact none_here e
      | cons fr fs =>
        obtain ⟨c', rest'⟩ := fr
        intro e
        obtain ⟨⟨h1, pre, h2, h3⟩, h4⟩ := (hpc e).2
        refine ⟨⟨h1, pre ++ [c], by rw [h2]; simp, fun p hp => ?_⟩, h4⟩
        rcases List.mem_append.1 hp with hp | hp
        · exact h3 p hp
        · rw [List.mem_singleton.1 hp]; exact none_here e
    · cases h
      exact o.move _ (fun e => hpc e) hres (fun q hq => by cases hq; exact hold _ rfl) hor
  · -- unwind
    rename_i q c fs e
    rw [e] at hpc hold
    split at h
    · cases h
      refine o.move _ trivial ?_ nofun ?_
      · intro r hr
        rcases List.mem_append.1 hr with hr | hr
        · exact hres r hr
        · cases List.mem_singleton.1 hr; exact hpc
      · intro r hr
        rcases List.mem_append.1 hr with hr | hr
        · exact hor r hr
        · cases List.mem_singleton.1 hr; exact hold _ rfl
    · cases h
      exact o.move _ hpc hres (fun q hq => by cases hq; exact hold _ rfl) hor
  · split at h
    · cases h
    · cases h; exact o.move _ trivial hres nofun hor
  · -- hold
    rename_i d b e
    cases h
    have hs : ∀ c, s.bases c <+: upd s.bases d (append (s.bases d) b) c := by
      intro c
      by_cases h : c = d
      · subst h
        rw [upd_same]
        unfold append
        split
        · exact List.prefix_refl _
        · exact List.prefix_append ..
      · rw [upd_ne _ _ h]; exact List.prefix_refl _
    refine ⟨fun j => ?_, fun j r hr => ?_, fun j q hq c => ?_, fun j r hr c => ?_⟩
    · simp only [State.put]
      by_cases h : j = i
      · subst h; rw [upd_same]; trivial
      · rw [upd_ne _ _ h]; exact (o.pc j).mono hs (o.oldPc j)
    · have hr' : r ∈ (s.threads j).results := by
        simp only [State.put] at hr
        by_cases h : j = i
        · subst h; rw [upd_same] at hr; exact hr
        · rw [upd_ne _ _ h] at hr; exact hr
      intro e
      have : s.bases = upd s.bases d (append (s.bases d) b) := grown_eq (o.oldResults j r hr') hs e
      simp only at e ⊢
      rw [← this] at e ⊢
      exact o.results j r hr' e
    · simp only [State.put] at hq ⊢
      by_cases h : j = i
      · subst h; rw [upd_same] at hq; cases hq
      · rw [upd_ne _ _ h] at hq; exact (o.oldPc j q hq c).trans (hs c)
    · simp only [State.put] at hr ⊢
      by_cases h : j = i
      · subst h; rw [upd_same] at hr; exact (hor r hr c).trans (hs c)
      · rw [upd_ne _ _ h] at hr; exact (o.oldResults j r hr c).trans (hs c)
  · -- derive
    cases h
    have := o.move (i := i) { s.threads i with pc := .idle } trivial hres nofun hor
    exact ⟨this.pc, this.results, this.oldPc, this.oldResults⟩

theorem Fst.run {fair : Bool} {s : State} (o : Fst s) (is : List Nat) : Fst (run fair s is) := by
  induction is generalizing s with
  | nil => exact o
  | cons i is ih =>
    rw [WalkRace.run]
    refine ih ?_
    cases e : WalkRace.step fair s i with
    | none => exact o
    | some s' => exact o.step e

end Rtti.WalkRace
