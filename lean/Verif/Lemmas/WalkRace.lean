import Verif.Model.WalkRace
import Verif.Lemmas.World
/-! The invariant behind C71. -/
set_option autoImplicit false
namespace Rtti.WalkRace

/-- `t` is `d` or one of its direct or indirect bases -/
inductive Leads (g : Graph) : Ptr → Ptr → Prop
  | refl (d : Ptr) : Leads g d d
  | step {d m t : Ptr} : m ∈ g d → Leads g m t → Leads g d t

theorem Leads.trans {g : Graph} {a b c : Ptr} (h : Leads g a b) (h' : Leads g b c) : Leads g a c := by
  induction h with
  | refl => exact h'
  | step e _ ih => exact .step e (ih h')

def Sub (g g' : Graph) : Prop := ∀ d x, x ∈ g d → x ∈ g' d

theorem Leads.mono {g g' : Graph} (s : Sub g g') {a b : Ptr} (h : Leads g a b) : Leads g' a b := by
  induction h with
  | refl => exact .refl _
  | step e _ ih => exact .step (s _ _ e) ih

theorem Sub.trans {a b c : Graph} (h : Sub a b) (h' : Sub b c) : Sub a c := fun d x e => h' d x (h d x e)

/-- what the frames of a walk are like -/
structure FramesOk (g : Graph) (q : Walk) (fs : List (Ptr × List Ptr)) : Prop where
  start : Sub q.start g
  suffix : ∀ f ∈ fs, f.2 <:+ g f.1
  leads : ∀ f ∈ fs, Leads g q.d f.1

/-- every hit reachable at the start can still be found -/
def Covered (q : Walk) (now : Ptr → Prop) (fs : List (Ptr × List Ptr)) : Prop :=
  ∀ t, q.hit t = true → Leads q.start q.d t → now t ∨ ∃ f ∈ fs, ∃ x ∈ f.2, Leads q.start x t

/-- ranks increase from the innermost frame outwards -/
def Ranked (rank : Ptr → Nat) (l : List Ptr) : Prop := l.Pairwise fun a b => rank a < rank b

def PcOk (rank : Ptr → Nat) (g : Graph) : Pc → Prop
  | .idle => True
  | .enter q c fs => FramesOk g q fs ∧ Leads g q.d c ∧ Ranked rank (c :: fs.map (·.1)) ∧ Covered q (Leads q.start c) fs
  | .loop q fs => FramesOk g q fs ∧ Ranked rank (fs.map (·.1)) ∧ Covered q (fun _ => False) fs
  | .unwind q c fs => FramesOk g q fs ∧ Leads g q.d c ∧ q.hit c = true ∧ Ranked rank (fs.map (·.1))
  | .want d b => rank b < rank d
  | .hold d b => rank b < rank d
  | .derive d b => b ∈ g d

def ResultOk (g : Graph) (r : Walk × Option Ptr) : Prop :=
  match r.2 with
  | some c => r.1.hit c = true ∧ Leads g r.1.d c
  | none => ∀ t, r.1.hit t = true → ¬Leads r.1.start r.1.d t

def TodoOk (rank : Ptr → Nat) (l : List Req) : Prop := ∀ d b, Req.addBase d b ∈ l → rank b < rank d

structure Ok (rank : Ptr → Nat) (s : State) : Prop where
  out : ∀ i, s.n ≤ i → (s.threads i).pc = .idle
  pc : ∀ i, PcOk rank s.bases (s.threads i).pc
  todo : ∀ i, TodoOk rank (s.threads i).todo
  results : ∀ i, ∀ r ∈ (s.threads i).results, ResultOk s.bases r
  edges : ∀ d, ∀ b ∈ s.bases d, rank b < rank d
  nodup : ∀ d, (s.bases d).Nodup ∧ (s.derived d).Nodup
  mirror : ∀ d, ∀ b ∈ s.bases d, d ∈ s.derived b ∨ ∃ i, (s.threads i).pc = .derive d b
  back : ∀ b, ∀ d ∈ s.derived b, b ∈ s.bases d
  alone : ∀ i d b, (s.threads i).pc = .hold d b →
    (∀ j, ∀ f ∈ (s.threads j).pc.frames, f.1 ≠ d) ∧ ∀ j b', (s.threads j).pc = .hold d b' → j = i

theorem Ok.init (rank : Ptr → Nat) (n : Nat) (programs : Nat → List Req) (h : ∀ i, TodoOk rank (programs i)) :
    Ok rank (init n programs) :=
  ⟨fun _ _ => rfl, fun _ => trivial, h, fun _ r hr => (by cases hr), fun _ _ hb => (by cases hb),
   fun _ => ⟨List.nodup_nil, List.nodup_nil⟩, fun _ _ hb => (by cases hb), fun _ _ hb => (by cases hb), fun _ _ _ h => nomatch h⟩

theorem reading_iff {rank : Ptr → Nat} {s : State} (o : Ok rank s) (c : Ptr) :
    s.reading c = true ↔ ∃ j, ∃ f ∈ (s.threads j).pc.frames, f.1 = c := by
  simp only [State.reading, List.any_eq_true, List.mem_range, beq_iff_eq]
  refine ⟨fun ⟨j, _, h⟩ => ⟨j, h⟩, fun ⟨j, f, h1, h2⟩ => ⟨j, ?_, f, h1, h2⟩⟩
  refine Classical.byContradiction fun hn => ?_
  rw [o.out j (Nat.le_of_not_lt hn)] at h1
  cases h1

theorem writing_iff {rank : Ptr → Nat} {s : State} (o : Ok rank s) (c : Ptr) :
    s.writing c = true ↔ ∃ j b, (s.threads j).pc = .hold c b := by
  simp only [State.writing, List.any_eq_true, List.mem_range]
  refine ⟨fun ⟨j, _, h⟩ => ⟨j, ?_⟩, fun ⟨j, b, h⟩ => ⟨j, ?_, ?_⟩⟩
  · unfold Pc.holds at h
    split at h
    · rename_i d b e
      rw [beq_iff_eq] at h
      exact ⟨b, by rw [e, h]⟩
    · cases h
  · refine Classical.byContradiction fun hn => ?_
    rw [o.out j (Nat.le_of_not_lt hn)] at h
    cases h
  · rw [h]; simp [Pc.holds]

theorem waiting_iff {rank : Ptr → Nat} {s : State} (o : Ok rank s) (c : Ptr) :
    s.waiting c = true ↔ ∃ j b, (s.threads j).pc = .want c b := by
  simp only [State.waiting, List.any_eq_true, List.mem_range]
  refine ⟨fun ⟨j, _, h⟩ => ⟨j, ?_⟩, fun ⟨j, b, h⟩ => ⟨j, ?_, ?_⟩⟩
  · unfold Pc.wants at h
    split at h
    · rename_i d b e
      rw [beq_iff_eq] at h
      exact ⟨b, by rw [e, h]⟩
    · cases h
  · refine Classical.byContradiction fun hn => ?_
    rw [o.out j (Nat.le_of_not_lt hn)] at h
    cases h
  · rw [h]; simp [Pc.wants]

theorem mem_append' {l : List Ptr} {x y : Ptr} : y ∈ append l x ↔ y ∈ l ∨ y = x := by
  unfold append
  by_cases h : l.contains x
  · rw [if_pos h]
    refine ⟨.inl, fun h' => h'.elim id fun e => ?_⟩
    rw [e]; exact List.contains_iff_mem.1 h
  · rw [if_neg h]; simp

theorem nodup_append' {l : List Ptr} {x : Ptr} (h : l.Nodup) : (append l x).Nodup := by
  unfold append
  by_cases hc : l.contains x
  · rw [if_pos hc]; exact h
  · rw [if_neg hc]
    refine List.nodup_append.2 ⟨h, by simp, fun a ha b hb e => hc ?_⟩
    simp only [List.mem_singleton] at hb
    rw [← hb, ← e]; exact List.contains_iff_mem.2 ha

/-- a state of the thread that does not depend on the lists being walked carries over to larger lists -/
theorem PcOk.mono {rank : Ptr → Nat} {g g' : Graph} (hs : Sub g g') {p : Pc} (hf : ∀ f ∈ p.frames, g' f.1 = g f.1) (h : PcOk rank g p) :
    PcOk rank g' p := by
  have fo : ∀ {q fs}, (∀ f ∈ fs, g' f.1 = g f.1) → FramesOk g q fs → FramesOk g' q fs := fun hf h =>
    ⟨h.start.trans hs, fun f hm => by rw [hf f hm]; exact h.suffix f hm, fun f hm => (h.leads f hm).mono hs⟩
  cases p with
  | idle => trivial
  | enter q c fs => exact ⟨fo hf h.1, h.2.1.mono hs, h.2.2⟩
  | loop q fs => exact ⟨fo hf h.1, h.2⟩
  | unwind q c fs => exact ⟨fo hf h.1, h.2.1.mono hs, h.2.2⟩
  | want => exact h
  | hold => exact h
  | derive d b => exact hs _ _ h

theorem ResultOk.mono {g g' : Graph} (hs : Sub g g') {r : Walk × Option Ptr} (h : ResultOk g r) : ResultOk g' r := by
  unfold ResultOk at h ⊢
  split
  · rename_i e; rw [e] at h; exact ⟨h.1, h.2.mono hs⟩
  · rename_i e; rw [e] at h; exact h

/-- steps that only change the place of one thread -/
theorem Ok.move {rank : Ptr → Nat} {s : State} (o : Ok rank s) {i : Nat} (hi : i < s.n) (t : Thread)
    (hp : PcOk rank s.bases t.pc) (ht : TodoOk rank t.todo) (hr : ∀ r ∈ t.results, ResultOk s.bases r)
    (hd : ∀ d b, (s.threads i).pc = .derive d b → t.pc = .derive d b)
    (hh : ∀ d b, t.pc = .hold d b → s.reading d = false ∧ s.writing d = false ∧ t.pc.frames = [])
    (hf : ∀ f ∈ t.pc.frames, (∃ f' ∈ (s.threads i).pc.frames, f'.1 = f.1) ∨ s.writing f.1 = false) :
    Ok rank { s with threads := upd s.threads i t } := by
  have eq : ∀ j, j ≠ i → upd s.threads i t j = s.threads j := fun j h => upd_ne _ _ h
  refine ⟨fun j hj => ?_, fun j => ?_, fun j => ?_, fun j => ?_, o.edges, o.nodup, fun d b hb => ?_, o.back, fun j d b hj => ?_⟩
  · simp only at hj ⊢
    have : j ≠ i := by omega
    rw [eq j this]; exact o.out j hj
  · simp only
    by_cases h : j = i
    · subst h; simpa using hp
    · rw [eq j h]; exact o.pc j
  · simp only
    by_cases h : j = i
    · subst h; simpa using ht
    · rw [eq j h]; exact o.todo j
  · simp only
    by_cases h : j = i
    · subst h; simpa using hr
    · rw [eq j h]; exact o.results j
  · rcases o.mirror d b hb with h | ⟨k, h⟩
    · exact .inl h
    · refine .inr ⟨k, ?_⟩
      simp only
      by_cases hk : k = i
      · subst hk; simpa using hd d b h
      · rw [eq k hk]; exact h
  · simp only at hj ⊢
    by_cases hji : j = i
    · subst hji
      simp only [upd_same] at hj
      obtain ⟨h1, h2, h3⟩ := hh d b hj
      have h1' : ∀ k, ∀ f ∈ (s.threads k).pc.frames, f.1 ≠ d := fun k f hf e => by
        have := (reading_iff o d).2 ⟨k, f, hf, e⟩
        rw [h1] at this; cases this
      have h2' : ∀ k b', (s.threads k).pc ≠ .hold d b' := fun k b' e => by
        have := (writing_iff o d).2 ⟨k, b', e⟩
        rw [h2] at this; cases this
      refine ⟨fun k f hf => ?_, fun k b' hk => ?_⟩
      · by_cases hkj : k = j
        · subst hkj; rw [upd_same, h3] at hf; cases hf
        · rw [eq k hkj] at hf; exact h1' k f hf
      · refine Classical.byContradiction fun hkj => ?_
        rw [eq k hkj] at hk; exact h2' k b' hk
    · rw [eq j hji] at hj
      obtain ⟨h1, h2⟩ := o.alone j d b hj
      refine ⟨fun k f hfk => ?_, fun k b' hk => ?_⟩
      · by_cases hki : k = i
        · subst hki
          rw [upd_same] at hfk
          rcases hf f hfk with ⟨f', h3, h4⟩ | h3
          · rw [← h4]; exact h1 k f' h3
          · intro e
            have := (writing_iff o d).2 ⟨j, b, hj⟩
            rw [e, this] at h3; cases h3
        · rw [eq k hki] at hfk; exact h1 k f hfk
      · by_cases hki : k = i
        · subst hki
          rw [upd_same] at hk
          have := (hh d b' hk).2.1
          rw [(writing_iff o d).2 ⟨j, b, hj⟩] at this; cases this
        · rw [eq k hki] at hk; exact h2 k b' hk

theorem Ok.step {rank : Ptr → Nat} {fair : Bool} {s s' : State} (o : Ok rank s) {i : Nat} (h : step fair s i = some s') : Ok rank s' := by
  unfold WalkRace.step at h
  split at h
  · cases h
  rename_i hi
  have hi : i < s.n := Nat.lt_of_not_le hi
  have hpc := o.pc i
  have htodo := o.todo i
  have hres := o.results i
  split at h
  · -- idle
    split at h
    · cases h
    · rename_i hx _ d hit rest e
      cases h
      have ht : TodoOk rank rest := fun d b hm => htodo d b (by rw [e]; exact List.mem_cons_of_mem _ hm)
      refine o.move hi _ ?_ ht hres (fun d b hd => ?_) (fun _ _ h => nomatch h) (fun f hf => nomatch hf)
      · exact ⟨⟨fun _ _ h => h, fun _ h => (nomatch h), fun _ h => (nomatch h)⟩, .refl _, List.pairwise_singleton .., fun t _ h => .inl h⟩
      · rw [hx] at hd; cases hd
    · rename_i hx _ d b rest e
      cases h
      have ht : TodoOk rank rest := fun d b hm => htodo d b (by rw [e]; exact List.mem_cons_of_mem _ hm)
      refine o.move hi _ ?_ ht hres (fun d b hd => ?_) (fun _ _ h => nomatch h) (fun f hf => nomatch hf)
      · exact htodo d b (by rw [e]; exact List.mem_cons_self ..)
      · rw [hx] at hd; cases hd
  · -- enter
    rename_i q c fs e
    rw [e] at hpc
    obtain ⟨h1, h2, h3, h4⟩ := hpc
    split at h
    · rename_i hit
      cases h
      refine o.move hi _ ⟨h1, h2, hit, (List.pairwise_cons.1 h3).2⟩ htodo hres (fun d b hd => by rw [e] at hd; cases hd)
        (fun _ _ h => nomatch h) (fun f hf => .inl ⟨f, by rw [e]; exact hf, rfl⟩)
    · rename_i hit
      split at h
      · cases h
      · rename_i hl
        cases h
        rw [Bool.or_eq_true, not_or] at hl
        refine o.move hi _ ⟨⟨h1.start, ?_, ?_⟩, h3, ?_⟩ htodo hres (fun d b hd => by rw [e] at hd; cases hd)
          (fun _ _ h => nomatch h) (fun f hf => ?_)
        · intro f hf
          rcases List.mem_cons.1 hf with rfl | hf
          · exact List.suffix_refl _
          · exact h1.suffix f hf
        · intro f hf
          rcases List.mem_cons.1 hf with rfl | hf
          · exact h2
          · exact h1.leads f hf
        · intro t ht hl'
          rcases h4 t ht hl' with h | ⟨f, hf, x, hx, h⟩
          · cases h with
            | refl => exact absurd ht hit
            | step hm h => exact .inr ⟨_, List.mem_cons_self .., _, h1.start _ _ hm, h⟩
          · exact .inr ⟨f, List.mem_cons_of_mem _ hf, x, hx, h⟩
        · rcases List.mem_cons.1 hf with rfl | hf
          · exact .inr (by simpa using hl.1)
          · exact .inl ⟨f, by rw [e]; exact hf, rfl⟩
  · -- loop
    rename_i q fs e
    rw [e] at hpc
    obtain ⟨h1, h2, h3⟩ := hpc
    split at h
    · cases h
      refine o.move hi _ trivial htodo ?_ (fun d b hd => by rw [e] at hd; cases hd) (fun _ _ h => nomatch h) (fun f hf => nomatch hf)
      intro r hr
      rcases List.mem_append.1 hr with hr | hr
      · exact hres r hr
      · cases List.mem_singleton.1 hr
        intro t ht hl
        rcases h3 t ht hl with h | ⟨f, hf, _⟩
        · exact h
        · cases hf
    · rename_i c fs
      cases h
      refine o.move hi _ ⟨⟨h1.start, fun f hf => h1.suffix f (List.mem_cons_of_mem _ hf), fun f hf => h1.leads f (List.mem_cons_of_mem _ hf)⟩,
        (List.pairwise_cons.1 h2).2, ?_⟩ htodo hres (fun d b hd => by rw [e] at hd; cases hd) (fun _ _ h => nomatch h)
        (fun f hf => .inl ⟨f, by rw [e]; exact List.mem_cons_of_mem _ hf, rfl⟩)
      intro t ht hl
      rcases h3 t ht hl with h | ⟨f, hf, x, hx, h⟩
      · exact h.elim
      · rcases List.mem_cons.1 hf with rfl | hf
        · cases hx
        · exact .inr ⟨f, hf, x, hx, h⟩
    · rename_i c x rest fs
      cases h
      have hsuf := h1.suffix _ (List.mem_cons_self ..)
      have hx : x ∈ s.bases c := hsuf.subset (List.mem_cons_self ..)
      have hlc := h1.leads _ (List.mem_cons_self ..)
      refine o.move hi _ ⟨⟨h1.start, ?_, ?_⟩, hlc.trans (.step hx (.refl _)), ?_, ?_⟩ htodo hres
        (fun d b hd => by rw [e] at hd; cases hd) (fun _ _ h => nomatch h) (fun f hf => ?_)
      · intro f hf
        rcases List.mem_cons.1 hf with rfl | hf
        · exact (List.suffix_cons x rest).trans hsuf
        · exact h1.suffix f (List.mem_cons_of_mem _ hf)
      · intro f hf
        rcases List.mem_cons.1 hf with rfl | hf
        · exact hlc
        · exact h1.leads f (List.mem_cons_of_mem _ hf)
      · refine List.pairwise_cons.2 ⟨fun y hy => ?_, h2⟩
        have hlt := o.edges c x hx
        rcases List.mem_cons.1 hy with rfl | hy
        · exact hlt
        · exact Nat.lt_trans hlt ((List.pairwise_cons.1 h2).1 y hy)
      · intro t ht hl
        rcases h3 t ht hl with h | ⟨f, hf, y, hy, h⟩
        · exact h.elim
        · rcases List.mem_cons.1 hf with rfl | hf
          · rcases List.mem_cons.1 hy with rfl | hy
            · exact .inl h
            · exact .inr ⟨_, List.mem_cons_self .., y, hy, h⟩
          · exact .inr ⟨f, List.mem_cons_of_mem _ hf, y, hy, h⟩
      · rcases List.mem_cons.1 hf with rfl | hf
        · exact .inl ⟨(c, x :: rest), by rw [e]; exact List.mem_cons_self .., rfl⟩
        · exact .inl ⟨f, by rw [e]; exact List.mem_cons_of_mem _ hf, rfl⟩
  · -- unwind
    rename_i q c fs e
    rw [e] at hpc
    obtain ⟨h1, h2, h3, h4⟩ := hpc
    split at h
    · cases h
      refine o.move hi _ trivial htodo ?_ (fun d b hd => by rw [e] at hd; cases hd) (fun _ _ h => nomatch h) (fun f hf => nomatch hf)
      intro r hr
      rcases List.mem_append.1 hr with hr | hr
      · exact hres r hr
      · cases List.mem_singleton.1 hr
        exact ⟨h3, h2⟩
    · rename_i f fs
      cases h
      refine o.move hi _ ⟨⟨h1.start, fun f hf => h1.suffix f (List.mem_cons_of_mem _ hf), fun f hf => h1.leads f (List.mem_cons_of_mem _ hf)⟩,
        h2, h3, (List.pairwise_cons.1 h4).2⟩ htodo hres (fun d b hd => by rw [e] at hd; cases hd) (fun _ _ h => nomatch h)
        (fun f hf => .inl ⟨f, by rw [e]; exact List.mem_cons_of_mem _ hf, rfl⟩)
  · -- want
    rename_i d b e
    rw [e] at hpc
    split at h
    · cases h
    · rename_i hl
      cases h
      rw [Bool.or_eq_true, not_or] at hl
      refine o.move hi _ hpc htodo hres (fun d b hd => by rw [e] at hd; cases hd) (fun d' b' h => ?_) (fun f hf => nomatch hf)
      cases h
      exact ⟨by simpa using hl.1, by simpa using hl.2, rfl⟩
  · -- hold
    rename_i d b e
    rw [e] at hpc
    cases h
    obtain ⟨a1, a2⟩ := o.alone i d b e
    have hsub : Sub s.bases (upd s.bases d (append (s.bases d) b)) := by
      intro d' x hx
      by_cases h : d' = d
      · subst h; rw [upd_same]; exact mem_append'.2 (.inl hx)
      · rw [upd_ne _ _ h]; exact hx
    have hmem : b ∈ upd s.bases d (append (s.bases d) b) d := by rw [upd_same]; exact mem_append'.2 (.inr rfl)
    have key : ∀ j, PcOk rank (upd s.bases d (append (s.bases d) b)) (s.threads j).pc := fun j =>
      (o.pc j).mono hsub fun f hf => upd_ne _ _ (a1 j f hf)
    refine ⟨fun j hj => ?_, fun j => ?_, fun j => ?_, fun j r hr => ?_, fun d' b' hb => ?_, fun d' => ?_, fun d' b' hb => ?_, fun b' d' hd => ?_, fun j d' b' hj => ?_⟩
    · have : j ≠ i := by simp only [State.put] at hj; omega
      simp only [State.put, upd_ne _ _ this]; exact o.out j hj
    · simp only [State.put]
      by_cases h : j = i
      · subst h; simp only [upd_same]; exact hmem
      · rw [upd_ne _ _ h]; exact key j
    · simp only [State.put]
      by_cases h : j = i
      · subst h; simp only [upd_same]; exact htodo
      · rw [upd_ne _ _ h]; exact o.todo j
    · simp only [State.put] at hr ⊢
      by_cases h : j = i
      · subst h; simp only [upd_same] at hr; exact (hres r hr).mono hsub
      · rw [upd_ne _ _ h] at hr; exact (o.results j r hr).mono hsub
    · simp only at hb
      by_cases h : d' = d
      · subst h
        rw [upd_same] at hb
        rcases mem_append'.1 hb with hb | rfl
        · exact o.edges _ _ hb
        · exact hpc
      · rw [upd_ne _ _ h] at hb; exact o.edges _ _ hb
    · simp only [State.put]
      refine ⟨?_, (o.nodup d').2⟩
      by_cases h : d' = d
      · subst h; rw [upd_same]; exact nodup_append' (o.nodup _).1
      · rw [upd_ne _ _ h]; exact (o.nodup d').1
    · have old : b' ∈ s.bases d' → d' ∈ s.derived b' ∨ ∃ j, (upd s.threads i { s.threads i with pc := .derive d b } j).pc = .derive d' b' := by
        intro hb
        rcases o.mirror d' b' hb with h | ⟨j, h⟩
        · exact .inl h
        · refine .inr ⟨j, ?_⟩
          have : j ≠ i := fun h' => by rw [h', e] at h; cases h
          rw [upd_ne _ _ this]; exact h
      simp only [State.put] at hb ⊢
      by_cases h : d' = d
      · subst h
        rw [upd_same] at hb
        rcases mem_append'.1 hb with hb | rfl
        · exact old hb
        · exact .inr ⟨i, by simp⟩
      · rw [upd_ne _ _ h] at hb; exact old hb
    · exact hsub _ _ (o.back b' d' hd)
    · simp only [State.put] at hj ⊢
      have hji : j ≠ i := fun h => by rw [h] at hj; simp at hj
      rw [upd_ne _ _ hji] at hj
      obtain ⟨h1, h2⟩ := o.alone j d' b' hj
      refine ⟨fun k f hf => ?_, fun k b'' hk => ?_⟩
      · by_cases hk : k = i
        · subst hk; simp [Pc.frames] at hf
        · rw [upd_ne _ _ hk] at hf; exact h1 k f hf
      · by_cases hk' : k = i
        · subst hk'; simp at hk
        · rw [upd_ne _ _ hk'] at hk; exact h2 k b'' hk
  · -- derive
    rename_i d b e
    rw [e] at hpc
    cases h
    refine ⟨fun j hj => ?_, fun j => ?_, fun j => ?_, fun j r hr => ?_, o.edges, fun d' => ?_, fun d' b' hb => ?_, fun b' d' hd => ?_, fun j d' b' hj => ?_⟩
    · have : j ≠ i := by simp only [State.put] at hj; omega
      simp only [State.put, upd_ne _ _ this]; exact o.out j hj
    · simp only [State.put]
      by_cases h : j = i
      · subst h; simp only [upd_same]; trivial
      · rw [upd_ne _ _ h]; exact o.pc j
    · simp only [State.put]
      by_cases h : j = i
      · subst h; simp only [upd_same]; exact htodo
      · rw [upd_ne _ _ h]; exact o.todo j
    · simp only [State.put] at hr ⊢
      by_cases h : j = i
      · subst h; simp only [upd_same] at hr; exact hres r hr
      · rw [upd_ne _ _ h] at hr; exact o.results j r hr
    · simp only [State.put]
      refine ⟨(o.nodup d').1, ?_⟩
      by_cases h : d' = b
      · subst h; rw [upd_same]; exact nodup_append' (o.nodup _).2
      · rw [upd_ne _ _ h]; exact (o.nodup d').2
    · simp only [State.put] at hb ⊢
      by_cases h : b' = b ∧ d' = d
      · left; rw [h.1, h.2, upd_same]; exact mem_append'.2 (.inr rfl)
      · rcases o.mirror d' b' hb with h' | ⟨j, h'⟩
        · left
          by_cases h2 : b' = b
          · rw [h2, upd_same]; exact mem_append'.2 (.inl (h2 ▸ h'))
          · rw [upd_ne _ _ h2]; exact h'
        · right
          have : j ≠ i := fun h2 => by rw [h2, e] at h'; cases h'; exact h ⟨rfl, rfl⟩
          exact ⟨j, by rw [upd_ne _ _ this]; exact h'⟩
    · simp only [State.put] at hd ⊢
      by_cases h : b' = b
      · subst h
        rw [upd_same] at hd
        rcases mem_append'.1 hd with hd | rfl
        · exact o.back _ _ hd
        · exact hpc
      · rw [upd_ne _ _ h] at hd; exact o.back _ _ hd
    · simp only [State.put] at hj ⊢
      have hji : j ≠ i := fun h => by rw [h] at hj; simp at hj
      rw [upd_ne _ _ hji] at hj
      obtain ⟨h1, h2⟩ := o.alone j d' b' hj
      refine ⟨fun k f hf => ?_, fun k b'' hk => ?_⟩
      · by_cases hk : k = i
        · subst hk; simp [Pc.frames] at hf
        · rw [upd_ne _ _ hk] at hf; exact h1 k f hf
      · by_cases hk' : k = i
        · subst hk'; simp at hk
        · rw [upd_ne _ _ hk'] at hk; exact h2 k b'' hk

theorem Ok.run {rank : Ptr → Nat} {fair : Bool} {s : State} (o : Ok rank s) (is : List Nat) : Ok rank (run fair s is) := by
  induction is generalizing s with
  | nil => exact o
  | cons i is ih =>
    rw [WalkRace.run]
    refine ih ?_
    cases e : WalkRace.step fair s i with
    | none => exact o
    | some s' => exact o.step e

/-- a thread with work can only be stuck waiting for a lock -/
theorem stuck {fair : Bool} {s : State} {i : Nat} (hi : i < s.n) (h : step fair s i = none) :
    ((s.threads i).pc = .idle ∧ (s.threads i).todo = []) ∨
    (∃ q c fs, (s.threads i).pc = .enter q c fs ∧ (s.writing c = true ∨ s.waiting c = true)) ∨
    (∃ d b, (s.threads i).pc = .want d b ∧ (s.reading d = true ∨ s.writing d = true)) := by
  unfold step at h
  rw [if_neg (Nat.not_le_of_lt hi)] at h
  split at h
  · split at h
    · rename_i e _ e'; exact .inl ⟨e, e'⟩
    · cases h
    · cases h
  · rename_i q c fs e
    split at h
    · cases h
    · split at h
      · rename_i hl
        rw [Bool.or_eq_true, Bool.and_eq_true] at hl
        exact .inr (.inl ⟨q, c, fs, e, hl.imp id And.right⟩)
      · cases h
  · split at h <;> cases h
  · split at h <;> cases h
  · rename_i d b e
    split at h
    · rename_i hl
      rw [Bool.or_eq_true] at hl
      exact .inr (.inr ⟨d, b, e, hl⟩)
    · cases h
  · cases h
  · cases h

/-- if nobody can move, nobody holds a lock in exclusive mode, ... -/
theorem no_writer {rank : Ptr → Nat} {fair : Bool} {s : State} (o : Ok rank s) (hall : ∀ i, i < s.n → step fair s i = none) (c : Ptr) :
    s.writing c = false := by
  refine Bool.eq_false_iff.2 fun h => ?_
  obtain ⟨j, b, e⟩ := (writing_iff o c).1 h
  have hj : j < s.n := Nat.lt_of_not_le fun hn => by rw [o.out j hn] at e; cases e
  rcases stuck hj (hall j hj) with ⟨h, _⟩ | ⟨q, c, fs, h, _⟩ | ⟨d, b, h, _⟩ <;> rw [e] at h <;> cases h

/-- ... and nobody waits for one -/
theorem no_waiter {rank : Ptr → Nat} {fair : Bool} {s : State} (o : Ok rank s) (hall : ∀ i, i < s.n → step fair s i = none) (n : Nat) :
    ∀ c, rank c = n → s.waiting c = false := by
  induction n using Nat.strongRecOn with
  | ind n ih =>
    intro c hc
    refine Bool.eq_false_iff.2 fun h => ?_
    obtain ⟨j, b, e⟩ := (waiting_iff o c).1 h
    have hj : j < s.n := Nat.lt_of_not_le fun hn => by rw [o.out j hn] at e; cases e
    have hr : s.reading c = true := by
      rcases stuck hj (hall j hj) with ⟨h, _⟩ | ⟨q, c, fs, h, _⟩ | ⟨d, b, h, h'⟩ <;> rw [e] at h <;> cases h
      rcases h' with h' | h'
      · exact h'
      · rw [no_writer o hall] at h'; cases h'
    obtain ⟨k, f, hf, hfc⟩ := (reading_iff o c).1 hr
    have hk : k < s.n := Nat.lt_of_not_le fun hn => by rw [o.out k hn] at hf; cases hf
    rcases stuck hk (hall k hk) with ⟨h, _⟩ | ⟨q, c', fs, h, h'⟩ | ⟨d, b, h, _⟩
    · rw [h] at hf; cases hf
    · have hp := o.pc k
      rw [h] at hp hf
      have hlt : rank c' < rank c := by
        rw [← hfc]
        exact (List.pairwise_cons.1 hp.2.2.1).1 _ (List.mem_map_of_mem hf)
      rcases h' with h' | h'
      · rw [no_writer o hall] at h'; cases h'
      · rw [ih (rank c') (by omega) c' rfl] at h'; cases h'
    · rw [h] at hf; cases hf

theorem progress {rank : Ptr → Nat} {fair : Bool} {s : State} (o : Ok rank s) {i : Nat} (hb : Busy s i) :
    ∃ j s', step fair s j = some s' := by
  refine Classical.byContradiction fun hn => ?_
  have hall : ∀ j, j < s.n → step fair s j = none := by
    intro j _
    cases e : step fair s j with
    | none => rfl
    | some s' => exact absurd ⟨j, s', e⟩ hn
  rcases stuck hb.1 (hall i hb.1) with ⟨h1, h2⟩ | ⟨q, c, fs, _, h⟩ | ⟨d, b, h, _⟩
  · exact hb.2.elim (· h1) (· h2)
  · rcases h with h | h
    · rw [no_writer o hall] at h; cases h
    · rw [no_waiter o hall _ c rfl] at h; cases h
  · have := (waiting_iff o d).2 ⟨i, b, h⟩
    rw [no_waiter o hall _ d rfl] at this; cases this

end Rtti.WalkRace
