import Verif.Spec.CastRace
import Verif.Lemmas.World
/-! The invariant behind C84. -/
set_option autoImplicit false
namespace Rtti.CastRace

theorem Grown.refl (g : Graph) : Grown g g := fun _ => List.prefix_refl _
theorem Grown.trans {a b c : Graph} (h : Grown a b) (h' : Grown b c) : Grown a c := fun x => (h x).trans (h' x)
theorem Grown.antisymm {a b : Graph} (h : Grown a b) (h' : Grown b a) : a = b :=
  funext fun c => (h c).eq_of_length_le (h' c).length_le

theorem Leads.trans {g : Graph} {a b c : Ptr} (h : Leads g a b) (h' : Leads g b c) : Leads g a c := by
  induction h with
  | refl => exact h'
  | step it e _ ih => exact .step it e (ih h')

theorem Leads.mono {g g' : Graph} (s : Grown g g') {a b : Ptr} (h : Leads g a b) : Leads g' a b := by
  induction h with
  | refl => exact .refl _
  | step it e _ ih => exact .step it ((s _).subset e) ih

theorem Route.trans {g : Graph} {a b c : Ptr} {x y z : Addr} (h : Route g a x b y) (h' : Route g b y c z) : Route g a x c z := by
  induction h with
  | refl => exact h'
  | step it e _ ih => exact .step it e (ih h')

theorem Route.mono {g g' : Graph} (s : Grown g g') {a b : Ptr} {x y : Addr} (h : Route g a x b y) : Route g' a x b y := by
  induction h with
  | refl => exact .refl _ _
  | step it e _ ih => exact .step it ((s _).subset e) ih

theorem Route.leads {g : Graph} {a b : Ptr} {x y : Addr} (h : Route g a x b y) : Leads g a b := by
  induction h with
  | refl => exact .refl _
  | step it e _ ih => exact .step it e ih

theorem First.route {g : Graph} {t c : Ptr} {x y : Addr} (h : First g t c x y) : Route g c x t y := by
  induction h with
  | here x => exact .refl _ _
  | up pre it post _ e _ _ _ ih => exact .step it (by rw [e]; simp) ih

/-- there is at most one such way -/
theorem First.unique {g : Graph} {t c : Ptr} {x y : Addr} (h : First g t c x y) : ∀ {z}, First g t c x z → y = z := by
  induction h with
  | here x =>
    intro z h
    cases h with
    | here => rfl
    | up _ _ _ h => exact absurd rfl h
  | up pre it post hc e hp hl _ ih =>
    intro z h
    cases h with
    | here => exact absurd rfl hc
    | up pre' it' post' _ e' hp' hl' h' =>
      have : it = it' := by
        rw [e] at e'
        clear ih h' e
        induction pre generalizing pre' with
        | nil =>
          cases pre' with
          | nil => simp at e'; exact e'.1
          | cons p ps => simp at e'; exact absurd (e'.1 ▸ hl) (hp' p (List.mem_cons_self ..))
        | cons p ps ih =>
          cases pre' with
          | nil => simp at e'; exact absurd (e'.1 ▸ hl') (hp p (List.mem_cons_self ..))
          | cons p' ps' =>
            simp at e'
            exact ih (fun a ha => hp a (List.mem_cons_of_mem _ ha)) ps' (fun a ha => hp' a (List.mem_cons_of_mem _ ha)) e'.2
      subst this
      exact ih h'

/-- ranks increase from the innermost class outwards -/
def Ranked (rank : Ptr → Nat) (l : List Ptr) : Prop := l.Pairwise fun a b => rank a < rank b

/-- a call that has come as far as class `c` with address `x` -/
structure At (g : Graph) (q : Call) (c : Ptr) (x : Addr) : Prop where
  start : Grown q.start g
  route : Route g q.d q.x c x
  first : q.start = g → ∀ y, First g q.t c x y → First g q.t q.d q.x y

/-- the items passed over did not lead to the target -/
def Passed (g : Graph) (t c : Ptr) (rest : List (Ptr × Caster)) : Prop :=
  ∃ pre, g c = pre ++ rest ∧ ∀ p ∈ pre, ¬Leads g p.1 t

/-- where an `inheritedFrom` is: what leads to the target from `b` can still be found -/
def TestOk (rank : Ptr → Nat) (g : Graph) (t b : Ptr) (asked : Graph) (below : List Ptr) (fs : List (Ptr × List Ptr)) : Test → Prop
  | .enter y => Leads g b y ∧ Ranked rank (y :: (fs.map (·.1) ++ below)) ∧
      (Leads asked b t → Leads asked y t ∨ ∃ fr ∈ fs, ∃ z ∈ fr.2, Leads asked z t)
  | .loop => Ranked rank (fs.map (·.1) ++ below) ∧ (Leads asked b t → ∃ fr ∈ fs, ∃ z ∈ fr.2, Leads asked z t)
  | .found => Ranked rank (fs.map (·.1) ++ below) ∧ Leads g b t

structure TestAt (rank : Ptr → Nat) (g : Graph) (q : Call) (c : Ptr) (x : Addr) (b : Ptr) (f : Caster) (rest : List (Ptr × Caster))
    (outer : List Ptr) (asked : Graph) (m : Test) (fs : List (Ptr × List Ptr)) : Prop where
  here : At g q c x
  ne : c ≠ q.t
  ranked : Ranked rank (c :: outer)
  old : Grown q.start asked
  new : Grown asked g
  suffix : (b, f) :: rest <:+ g c
  must : Leads q.start q.d q.t → Leads asked b q.t ∨ ∃ it ∈ rest, Leads g it.1 q.t
  passed : q.start = g → Passed g q.t c ((b, f) :: rest)
  frames : ∀ fr ∈ fs, fr.2 <:+ (g fr.1).map (·.1) ∧ Leads g b fr.1
  test : TestOk rank g q.t b asked (c :: outer) fs m

def PcOk (rank : Ptr → Nat) (g : Graph) : Pc → Prop
  | .idle => True
  | .enter q c x outer => At g q c x ∧ Ranked rank (c :: outer) ∧ (Leads q.start q.d q.t → Leads g c q.t)
  | .items q c x rest outer => At g q c x ∧ c ≠ q.t ∧ Ranked rank (c :: outer) ∧ rest <:+ g c ∧
      (Leads q.start q.d q.t → ∃ it ∈ rest, Leads g it.1 q.t) ∧ (q.start = g → Passed g q.t c rest)
  | .test q c x b f rest outer asked m fs => TestAt rank g q c x b f rest outer asked m fs
  | .unwind q r outer => Grown q.start g ∧ Ranked rank outer ∧
      match r with
      | some y => Route g q.d q.x q.t y ∧ (q.start = g → First g q.t q.d q.x y)
      | none => ¬Leads q.start q.d q.t
  | .want d b _ => rank b < rank d
  | .hold d b _ => rank b < rank d

theorem At.mono {g g' : Graph} (hs : Grown g g') {q : Call} {c : Ptr} {x : Addr} (h : At g q c x) : At g' q c x :=
  ⟨h.start.trans hs, h.route.mono hs, fun e => by
    have : g = g' := hs.antisymm (by rw [← e]; exact h.start)
    subst this; exact h.first e⟩

/-- a thread's place carries over to bases that have grown where the thread holds no lock -/
theorem PcOk.mono {rank : Ptr → Nat} {g g' : Graph} (hs : Grown g g') {p : Pc} (hf : ∀ c ∈ p.locks, g' c = g c) (h : PcOk rank g p) :
    PcOk rank g' p := by
  have same : ∀ {q : Call}, Grown q.start g → q.start = g' → g = g' := fun h e => hs.antisymm (by rw [← e]; exact h)
  cases p with
  | idle => trivial
  | enter q c x outer => exact ⟨h.1.mono hs, h.2.1, fun e => (h.2.2 e).mono hs⟩
  | items q c x rest outer =>
    obtain ⟨h1, h2, h3, h4, h5, h6⟩ := h
    refine ⟨h1.mono hs, h2, h3, by rw [hf c (List.mem_cons_self ..)]; exact h4, fun e => ?_, fun e => ?_⟩
    · obtain ⟨it, hi, hl⟩ := h5 e; exact ⟨it, hi, hl.mono hs⟩
    · have := same h1.start e
      subst this; exact h6 e
  | test q c x b f rest outer asked m fs =>
    have hc : g' c = g c := hf c (by simp [Pc.locks])
    refine ⟨h.here.mono hs, h.ne, h.ranked, h.old, h.new.trans hs, by rw [hc]; exact h.suffix, fun e => ?_, fun e => ?_, fun fr hfr => ?_, ?_⟩
    · rcases h.must e with h | ⟨it, hi, hl⟩
      · exact .inl h
      · exact .inr ⟨it, hi, hl.mono hs⟩
    · have := same h.here.start e
      subst this; exact h.passed e
    · rw [hf fr.1 (by simp only [Pc.locks]; exact List.mem_append_left _ (List.mem_map_of_mem hfr))]
      exact ⟨(h.frames fr hfr).1, (h.frames fr hfr).2.mono hs⟩
    · have := h.test
      cases m with
      | enter y => exact ⟨this.1.mono hs, this.2⟩
      | loop => exact this
      | found => exact ⟨this.1, this.2.mono hs⟩
  | unwind q r outer =>
    refine ⟨h.1.trans hs, h.2.1, ?_⟩
    have h3 := h.2.2
    cases r with
    | none => exact h3
    | some y =>
      refine ⟨h3.1.mono hs, fun e => ?_⟩
      have := same h.1 e
      subst this; exact h3.2 e
  | want => exact h
  | hold => exact h

/-- one step inside `cast` -/
theorem advance_ok {rank : Ptr → Nat} {g : Graph} (edges : ∀ d, ∀ it ∈ g d, rank it.1 < rank d) {blocked : Ptr → Bool} {p p' : Pc}
    (h : PcOk rank g p) (e : advance g blocked p = some p') :
    PcOk rank g p' ∧ (∀ c ∈ p'.locks, c ∈ p.locks ∨ blocked c = false) ∧ (∀ d b f, p' ≠ .hold d b f) := by
  cases p with
  | idle => cases e
  | want => cases e
  | hold => cases e
  | enter q c x outer =>
    obtain ⟨h1, h2, h3⟩ := h
    simp only [advance] at e
    split at e
    · rename_i hc
      cases e
      subst hc
      exact ⟨⟨h1.start, (List.pairwise_cons.1 h2).2, h1.route, fun e => h1.first e _ (.here _)⟩, fun c hc => .inl hc, nofun⟩
    · rename_i hc
      split at e
      · cases e
      · rename_i hb
        cases e
        refine ⟨⟨h1, hc, h2, List.suffix_refl _, fun e => ?_, fun _ => ⟨[], rfl, nofun⟩⟩, fun c' hc' => ?_, nofun⟩
        · cases h3 e with
          | refl => exact absurd rfl hc
          | step it hm hl => exact ⟨it, hm, hl⟩
        · rcases List.mem_cons.1 hc' with rfl | hc'
          · exact .inr (by simpa using hb)
          · exact .inl hc'
  | items q c x rest outer =>
    obtain ⟨h1, h2, h3, h4, h5, h6⟩ := h
    cases rest with
    | nil =>
      cases e
      refine ⟨⟨h1.start, (List.pairwise_cons.1 h3).2, fun e => ?_⟩, fun c hc => .inl (List.mem_cons_of_mem _ hc), nofun⟩
      obtain ⟨it, hi, _⟩ := h5 e
      cases hi
    | cons it rest =>
      obtain ⟨b, f⟩ := it
      cases e
      refine ⟨⟨h1, h2, h3, h1.start, .refl _, h4, fun e => ?_, h6, nofun, .refl _, ?_, .inl⟩, fun c hc => .inl hc, nofun⟩
      · obtain ⟨it, hi, hl⟩ := h5 e
        rcases List.mem_cons.1 hi with rfl | hi
        · exact .inl hl
        · exact .inr ⟨it, hi, hl⟩
      · have hb := edges c (b, f) (h4.subset (List.mem_cons_self ..))
        refine List.pairwise_cons.2 ⟨fun y hy => ?_, h3⟩
        rcases List.mem_cons.1 hy with rfl | hy
        · exact hb
        · exact Nat.lt_trans hb ((List.pairwise_cons.1 h3).1 y hy)
  | test q c x b f rest outer a m fs =>
    have ht := h.test
    cases m with
    | enter y =>
      obtain ⟨t1, t2, t3⟩ := ht
      simp only [advance] at e
      split at e
      · rename_i hy
        cases e
        subst hy
        exact ⟨⟨h.here, h.ne, h.ranked, h.old, h.new, h.suffix, h.must, h.passed, h.frames, (List.pairwise_cons.1 t2).2, t1⟩,
          fun c hc => .inl hc, nofun⟩
      · rename_i hy
        split at e
        · cases e
        · rename_i hb
          cases e
          refine ⟨⟨h.here, h.ne, h.ranked, h.old, h.new, h.suffix, h.must, h.passed, fun fr hfr => ?_, t2, fun hl => ?_⟩, fun c' hc' => ?_, nofun⟩
          · rcases List.mem_cons.1 hfr with rfl | hfr
            · exact ⟨List.suffix_refl _, t1⟩
            · exact h.frames fr hfr
          · rcases t3 hl with hl | ⟨fr, hfr, z, hz, hl⟩
            · cases hl with
              | refl => exact absurd rfl hy
              | step it hm hl =>
                exact ⟨_, List.mem_cons_self .., it.1, List.mem_map_of_mem ((h.new _).subset hm), hl⟩
            · exact ⟨fr, List.mem_cons_of_mem _ hfr, z, hz, hl⟩
          · simp only [Pc.locks, List.map_cons, List.cons_append] at hc' ⊢
            rcases List.mem_cons.1 hc' with rfl | hc'
            · exact .inr (by simpa using hb)
            · exact .inl hc'
    | loop =>
      obtain ⟨t1, t2⟩ := ht
      cases fs with
      | nil =>
        cases e
        have hno : ¬Leads a b q.t := fun hl => by obtain ⟨fr, hfr, _⟩ := t2 hl; cases hfr
        refine ⟨⟨h.here, h.ne, h.ranked, (List.suffix_cons _ _).trans h.suffix, fun e => ?_, fun e => ?_⟩, fun c hc => .inl hc, nofun⟩
        · rcases h.must e with hl | hl
          · exact absurd hl hno
          · exact hl
        · obtain ⟨pre, h1, h2⟩ := h.passed e
          have ha : a = g := h.new.antisymm (by rw [← e]; exact h.old)
          subst ha
          refine ⟨pre ++ [(b, f)], by rw [h1]; simp, fun p hp => ?_⟩
          rcases List.mem_append.1 hp with hp | hp
          · exact h2 p hp
          · rw [List.mem_singleton.1 hp]; exact hno
      | cons fr fs =>
        obtain ⟨y, zs⟩ := fr
        cases zs with
        | nil =>
          cases e
          refine ⟨⟨h.here, h.ne, h.ranked, h.old, h.new, h.suffix, h.must, h.passed, fun fr hfr => h.frames fr (List.mem_cons_of_mem _ hfr),
            (List.pairwise_cons.1 t1).2, fun hl => ?_⟩, fun c hc => .inl ?_, nofun⟩
          · obtain ⟨fr, hfr, z, hz, hl⟩ := t2 hl
            rcases List.mem_cons.1 hfr with rfl | hfr
            · cases hz
            · exact ⟨fr, hfr, z, hz, hl⟩
          · simp only [Pc.locks, List.map_cons, List.cons_append] at hc ⊢
            exact List.mem_cons_of_mem _ hc
        | cons z zs =>
          cases e
          obtain ⟨f1, f2⟩ := h.frames _ (List.mem_cons_self ..)
          have hz : z ∈ (g y).map (·.1) := f1.subset (List.mem_cons_self ..)
          obtain ⟨it, hit, hiz⟩ := List.mem_map.1 hz
          refine ⟨⟨h.here, h.ne, h.ranked, h.old, h.new, h.suffix, h.must, h.passed, fun fr hfr => ?_, ?_, ?_, fun hl => ?_⟩, fun c hc => .inl hc, nofun⟩
          · rcases List.mem_cons.1 hfr with rfl | hfr
            · exact ⟨(List.suffix_cons _ _).trans f1, f2⟩
            · exact h.frames fr (List.mem_cons_of_mem _ hfr)
          · subst hiz
            exact f2.trans (.step it hit (.refl _))
          · have hlt := edges y it hit
            rw [hiz] at hlt
            simp only [List.map_cons, List.cons_append] at t1 ⊢
            refine List.pairwise_cons.2 ⟨fun w hw => ?_, t1⟩
            rcases List.mem_cons.1 hw with rfl | hw
            · exact hlt
            · exact Nat.lt_trans hlt ((List.pairwise_cons.1 t1).1 w hw)
          · obtain ⟨fr, hfr, z', hz', hl⟩ := t2 hl
            rcases List.mem_cons.1 hfr with rfl | hfr
            · rcases List.mem_cons.1 hz' with rfl | hz'
              · exact .inl hl
              · exact .inr ⟨_, List.mem_cons_self .., z', hz', hl⟩
            · exact .inr ⟨fr, List.mem_cons_of_mem _ hfr, z', hz', hl⟩
    | found =>
      obtain ⟨t1, t2⟩ := ht
      cases fs with
      | nil =>
        cases e
        have hm : (b, f) ∈ g c := h.suffix.subset (List.mem_cons_self ..)
        have hlt := edges c _ hm
        refine ⟨⟨⟨h.here.start, h.here.route.trans (.step _ hm (.refl _ _)), fun e y hy => ?_⟩, ?_, fun _ => t2⟩, fun c hc => .inl hc, nofun⟩
        · obtain ⟨pre, h1, h2⟩ := h.passed e
          exact h.here.first e _ (.up pre (b, f) rest h.ne h1 h2 t2 hy)
        · refine List.pairwise_cons.2 ⟨fun w hw => ?_, h.ranked⟩
          rcases List.mem_cons.1 hw with rfl | hw
          · exact hlt
          · exact Nat.lt_trans hlt ((List.pairwise_cons.1 h.ranked).1 w hw)
      | cons fr fs =>
        cases e
        refine ⟨⟨h.here, h.ne, h.ranked, h.old, h.new, h.suffix, h.must, h.passed, fun fr hfr => h.frames fr (List.mem_cons_of_mem _ hfr),
          (List.pairwise_cons.1 t1).2, t2⟩, fun c hc => .inl ?_, nofun⟩
        simp only [Pc.locks, List.map_cons, List.cons_append] at hc ⊢
        exact List.mem_cons_of_mem _ hc
  | unwind q r outer =>
    cases outer with
    | nil => cases e
    | cons o outer =>
      cases e
      exact ⟨⟨h.1, (List.pairwise_cons.1 h.2.1).2, h.2.2⟩, fun c hc => .inl (List.mem_cons_of_mem _ hc), nofun⟩

/-! ### all threads -/

def AnswerOk (now : Graph) (a : Answer) : Prop :=
  Grown a.q.start a.stop ∧ Grown a.stop now ∧
  match a.r with
  | some y => Route a.stop a.q.d a.q.x a.q.t y ∧ (a.q.start = a.stop → First a.stop a.q.t a.q.d a.q.x y)
  | none => ¬Leads a.q.start a.q.d a.q.t

def TodoOk (rank : Ptr → Nat) (l : List Req) : Prop := ∀ d b f, Req.addBase d b f ∈ l → rank b < rank d

structure Ok (rank : Ptr → Nat) (s : State) : Prop where
  out : ∀ i, s.n ≤ i → (s.threads i).pc = .idle
  pc : ∀ i, PcOk rank s.bases (s.threads i).pc
  todo : ∀ i, TodoOk rank (s.threads i).todo
  answers : ∀ i, ∀ a ∈ (s.threads i).answers, AnswerOk s.bases a
  edges : ∀ d, ∀ it ∈ s.bases d, rank it.1 < rank d
  alone : ∀ i d b f, (s.threads i).pc = .hold d b f →
    (∀ j, d ∉ (s.threads j).pc.locks) ∧ ∀ j b' f', (s.threads j).pc = .hold d b' f' → j = i

theorem Ok.init (rank : Ptr → Nat) (n : Nat) (programs : Nat → List Req) (h : ∀ i, TodoOk rank (programs i)) :
    Ok rank (init n programs) :=
  ⟨fun _ _ => rfl, fun _ => trivial, h, fun _ r hr => (by cases hr), fun _ _ hb => (by cases hb), fun _ _ _ _ h => nomatch h⟩

theorem reading_iff {rank : Ptr → Nat} {s : State} (o : Ok rank s) (c : Ptr) :
    s.reading c = true ↔ ∃ j, c ∈ (s.threads j).pc.locks := by
  simp only [State.reading, List.any_eq_true, List.mem_range, beq_iff_eq, exists_eq_right]
  refine ⟨fun ⟨j, _, h⟩ => ⟨j, h⟩, fun ⟨j, h⟩ => ⟨j, ?_, h⟩⟩
  refine Classical.byContradiction fun hn => ?_
  rw [o.out j (Nat.le_of_not_lt hn)] at h
  cases h

theorem writing_iff {rank : Ptr → Nat} {s : State} (o : Ok rank s) (c : Ptr) :
    s.writing c = true ↔ ∃ j b f, (s.threads j).pc = .hold c b f := by
  simp only [State.writing, List.any_eq_true, List.mem_range]
  refine ⟨fun ⟨j, _, h⟩ => ⟨j, ?_⟩, fun ⟨j, b, f, h⟩ => ⟨j, ?_, ?_⟩⟩
  · unfold Pc.holds at h
    split at h
    · rename_i d b f e
      rw [beq_iff_eq] at h
      exact ⟨b, f, by rw [e, h]⟩
    · cases h
  · refine Classical.byContradiction fun hn => ?_
    rw [o.out j (Nat.le_of_not_lt hn)] at h
    cases h
  · rw [h]; simp [Pc.holds]

theorem waiting_iff {rank : Ptr → Nat} {s : State} (o : Ok rank s) (c : Ptr) :
    s.waiting c = true ↔ ∃ j b f, (s.threads j).pc = .want c b f := by
  simp only [State.waiting, List.any_eq_true, List.mem_range]
  refine ⟨fun ⟨j, _, h⟩ => ⟨j, ?_⟩, fun ⟨j, b, f, h⟩ => ⟨j, ?_, ?_⟩⟩
  · unfold Pc.wants at h
    split at h
    · rename_i d b f e
      rw [beq_iff_eq] at h
      exact ⟨b, f, by rw [e, h]⟩
    · cases h
  · refine Classical.byContradiction fun hn => ?_
    rw [o.out j (Nat.le_of_not_lt hn)] at h
    cases h
  · rw [h]; simp [Pc.wants]

theorem AnswerOk.mono {g g' : Graph} (hs : Grown g g') {a : Answer} (h : AnswerOk g a) : AnswerOk g' a :=
  ⟨h.1, h.2.1.trans hs, h.2.2⟩

theorem grown_append (g : Graph) (d b : Ptr) (f : Caster) : Grown g (upd g d (append (g d) b f)) := by
  intro c
  by_cases h : c = d
  · subst h
    rw [upd_same]
    unfold append
    split
    · exact List.prefix_refl _
    · exact List.prefix_append ..
  · rw [upd_ne _ _ h]; exact List.prefix_refl _

/-- steps that only change the place of one thread -/
theorem Ok.move {rank : Ptr → Nat} {s : State} (o : Ok rank s) {i : Nat} (hi : i < s.n) (t : Thread)
    (hp : PcOk rank s.bases t.pc) (ht : TodoOk rank t.todo) (hr : ∀ r ∈ t.answers, AnswerOk s.bases r)
    (hh : ∀ d b f, t.pc = .hold d b f → s.reading d = false ∧ s.writing d = false)
    (hf : ∀ c ∈ t.pc.locks, c ∈ (s.threads i).pc.locks ∨ s.writing c = false) :
    Ok rank (s.put i t) := by
  have eq : ∀ j, j ≠ i → upd s.threads i t j = s.threads j := fun j h => upd_ne _ _ h
  refine ⟨fun j hj => ?_, fun j => ?_, fun j => ?_, fun j => ?_, o.edges, fun j d b f hj => ?_⟩
  · simp only [State.put] at hj ⊢
    have : j ≠ i := by omega
    rw [eq j this]; exact o.out j hj
  · simp only [State.put]
    by_cases h : j = i
    · subst h; simpa using hp
    · rw [eq j h]; exact o.pc j
  · simp only [State.put]
    by_cases h : j = i
    · subst h; simpa using ht
    · rw [eq j h]; exact o.todo j
  · simp only [State.put]
    by_cases h : j = i
    · subst h; simpa using hr
    · rw [eq j h]; exact o.answers j
  · simp only [State.put] at hj ⊢
    by_cases hji : j = i
    · subst hji
      simp only [upd_same] at hj
      obtain ⟨h1, h2⟩ := hh d b f hj
      have h1' : ∀ k, d ∉ (s.threads k).pc.locks := fun k hf => by
        have := (reading_iff o d).2 ⟨k, hf⟩
        rw [h1] at this; cases this
      have h2' : ∀ k b' f', (s.threads k).pc ≠ .hold d b' f' := fun k b' f' e => by
        have := (writing_iff o d).2 ⟨k, b', f', e⟩
        rw [h2] at this; cases this
      refine ⟨fun k hf => ?_, fun k b' f' hk => ?_⟩
      · by_cases hkj : k = j
        · subst hkj; rw [upd_same, hj] at hf; cases hf
        · rw [eq k hkj] at hf; exact h1' k hf
      · refine Classical.byContradiction fun hkj => ?_
        rw [eq k hkj] at hk; exact h2' k b' f' hk
    · rw [eq j hji] at hj
      obtain ⟨h1, h2⟩ := o.alone j d b f hj
      have hw := (writing_iff o d).2 ⟨j, b, f, hj⟩
      refine ⟨fun k hfk => ?_, fun k b' f' hk => ?_⟩
      · by_cases hki : k = i
        · subst hki
          rw [upd_same] at hfk
          rcases hf d hfk with h3 | h3
          · exact h1 k h3
          · rw [hw] at h3; cases h3
        · rw [eq k hki] at hfk; exact h1 k hfk
      · by_cases hki : k = i
        · subst hki
          rw [upd_same] at hk
          have := (hh d b' f' hk).2
          rw [hw] at this; cases this
        · rw [eq k hki] at hk; exact h2 k b' f' hk

theorem Ok.step {rank : Ptr → Nat} {fair : Bool} {s s' : State} (o : Ok rank s) {i : Nat} (h : step fair s i = some s') : Ok rank s' := by
  unfold CastRace.step at h
  split at h
  · cases h
  rename_i hi
  have hi : i < s.n := Nat.lt_of_not_le hi
  have hpc := o.pc i
  have htodo := o.todo i
  have hans := o.answers i
  split at h
  · -- idle
    split at h
    · cases h
    · rename_i hx _ d t x rest e
      cases h
      have ht : TodoOk rank rest := fun d b f hm => htodo d b f (by rw [e]; exact List.mem_cons_of_mem _ hm)
      refine o.move hi _ ?_ ht hans nofun nofun
      exact ⟨⟨.refl _, .refl _ _, fun _ _ h => h⟩, List.pairwise_singleton .., fun h => h⟩
    · rename_i hx _ d b f rest e
      cases h
      have ht : TodoOk rank rest := fun d b f hm => htodo d b f (by rw [e]; exact List.mem_cons_of_mem _ hm)
      exact o.move hi _ (htodo d b f (by rw [e]; exact List.mem_cons_self ..)) ht hans nofun nofun
  · -- unwind
    rename_i q r e
    rw [e] at hpc
    cases h
    refine o.move hi _ trivial htodo (fun a ha => ?_) nofun nofun
    rcases List.mem_append.1 ha with ha | ha
    · exact hans a ha
    · cases List.mem_singleton.1 ha
      exact ⟨hpc.1, .refl _, hpc.2.2⟩
  · -- want
    rename_i d b f e
    rw [e] at hpc
    split at h
    · cases h
    · rename_i hl
      cases h
      rw [Bool.or_eq_true, not_or] at hl
      refine o.move hi _ hpc htodo hans (fun d' b' f' h => ?_) nofun
      cases h
      exact ⟨by simpa using hl.1, by simpa using hl.2⟩
  · -- hold
    rename_i d b f e
    rw [e] at hpc
    cases h
    obtain ⟨a1, a2⟩ := o.alone i d b f e
    have hs := grown_append s.bases d b f
    refine ⟨fun j hj => ?_, fun j => ?_, fun j => ?_, fun j a ha => ?_, fun d' it hit => ?_, fun j d' b' f' hj => ?_⟩
    · have : j ≠ i := by simp only [State.put] at hj; omega
      simp only [State.put, upd_ne _ _ this]; exact o.out j hj
    · simp only [State.put]
      by_cases h : j = i
      · subst h; simp only [upd_same]; trivial
      · rw [upd_ne _ _ h]
        exact (o.pc j).mono hs fun c hc => upd_ne _ _ fun h => a1 j (h ▸ hc)
    · simp only [State.put]
      by_cases h : j = i
      · subst h; simp only [upd_same]; exact htodo
      · rw [upd_ne _ _ h]; exact o.todo j
    · simp only [State.put] at ha ⊢
      by_cases h : j = i
      · subst h; simp only [upd_same] at ha; exact (hans a ha).mono hs
      · rw [upd_ne _ _ h] at ha; exact (o.answers j a ha).mono hs
    · simp only at hit
      by_cases h : d' = d
      · subst h
        rw [upd_same] at hit
        unfold append at hit
        split at hit
        · exact o.edges _ _ hit
        · rcases List.mem_append.1 hit with hit | hit
          · exact o.edges _ _ hit
          · rw [List.mem_singleton.1 hit]; exact hpc
      · rw [upd_ne _ _ h] at hit; exact o.edges _ _ hit
    · simp only [State.put] at hj ⊢
      have hji : j ≠ i := fun h => by rw [h] at hj; simp at hj
      rw [upd_ne _ _ hji] at hj
      obtain ⟨h1, h2⟩ := o.alone j d' b' f' hj
      refine ⟨fun k hf => ?_, fun k b'' f'' hk => ?_⟩
      · by_cases hk : k = i
        · subst hk; simp [Pc.locks] at hf
        · rw [upd_ne _ _ hk] at hf; exact h1 k hf
      · by_cases hk' : k = i
        · subst hk'; simp at hk
        · rw [upd_ne _ _ hk'] at hk; exact h2 k b'' f'' hk
  · split at h
    · cases h
    · rename_i p' e
      cases h
      obtain ⟨h1, h2, h3⟩ := advance_ok o.edges hpc e
      refine o.move hi _ h1 htodo hans (fun d b f h => absurd h (h3 d b f)) (fun c hc => ?_)
      rcases h2 c hc with h | h
      · exact .inl h
      · rw [Bool.or_eq_false_iff] at h; exact .inr h.1

theorem Ok.run {rank : Ptr → Nat} {fair : Bool} {s : State} (o : Ok rank s) (is : List Nat) : Ok rank (run fair s is) := by
  induction is generalizing s with
  | nil => exact o
  | cons i is ih =>
    rw [CastRace.run]
    refine ih ?_
    cases e : CastRace.step fair s i with
    | none => exact o
    | some s' => exact o.step e

/-! ### nobody waits forever -/

/-- inside `cast` only a lock can hold a thread up, and it ranks below all the thread holds -/
theorem advance_none {rank : Ptr → Nat} {g : Graph} {blocked : Ptr → Bool} {p : Pc} (h : PcOk rank g p) (e : advance g blocked p = none) :
    p = .idle ∨ (∃ q r, p = .unwind q r []) ∨ (∃ d b f, p = .want d b f) ∨ (∃ d b f, p = .hold d b f) ∨
    ∃ c, blocked c = true ∧ ∀ c' ∈ p.locks, rank c < rank c' := by
  cases p with
  | idle => exact .inl rfl
  | want d b f => exact .inr (.inr (.inl ⟨d, b, f, rfl⟩))
  | hold d b f => exact .inr (.inr (.inr (.inl ⟨d, b, f, rfl⟩)))
  | unwind q r outer =>
    cases outer with
    | nil => exact .inr (.inl ⟨q, r, rfl⟩)
    | cons => cases e
  | enter q c x outer =>
    simp only [advance] at e
    split at e
    · cases e
    · split at e
      · rename_i hb
        exact .inr (.inr (.inr (.inr ⟨c, hb, (List.pairwise_cons.1 h.2.1).1⟩)))
      · cases e
  | items q c x rest outer =>
    cases rest with
    | nil => cases e
    | cons it rest => obtain ⟨b, f⟩ := it; cases e
  | test q c x b f rest outer a m fs =>
    cases m with
    | enter y =>
      simp only [advance] at e
      split at e
      · cases e
      · split at e
        · rename_i hb
          exact .inr (.inr (.inr (.inr ⟨y, hb, (List.pairwise_cons.1 h.test.2.1).1⟩)))
        · cases e
    | loop =>
      cases fs with
      | nil => cases e
      | cons fr fs =>
        obtain ⟨y, zs⟩ := fr
        cases zs <;> cases e
    | found => cases fs <;> cases e

theorem stuck {rank : Ptr → Nat} {fair : Bool} {s : State} (o : Ok rank s) {i : Nat} (hi : i < s.n) (h : step fair s i = none) :
    ((s.threads i).pc = .idle ∧ (s.threads i).todo = []) ∨
    (∃ c, (s.writing c = true ∨ s.waiting c = true) ∧ (s.threads i).pc ≠ .idle ∧ (∀ c b f, (s.threads i).pc ≠ .hold c b f ∧ (s.threads i).pc ≠ .want c b f) ∧
      ∀ c' ∈ (s.threads i).pc.locks, rank c < rank c') ∨
    (∃ d b f, (s.threads i).pc = .want d b f ∧ (s.reading d = true ∨ s.writing d = true)) := by
  have hpc := o.pc i
  unfold step at h
  rw [if_neg (Nat.not_le_of_lt hi)] at h
  split at h
  · split at h
    · rename_i e _ e'; exact .inl ⟨e, e'⟩
    · cases h
    · cases h
  · cases h
  · rename_i d b f e
    split at h
    · rename_i hl
      rw [Bool.or_eq_true] at hl
      exact .inr (.inr ⟨d, b, f, e, hl⟩)
    · cases h
  · cases h
  · rename_i n1 n2 n3 n4
    split at h
    · rename_i e
      rcases advance_none hpc e with h | ⟨q, r, h⟩ | ⟨d, b, f, h⟩ | ⟨d, b, f, h⟩ | ⟨c, h, h'⟩
      · exact absurd h n1
      · exact absurd h (n2 q r)
      · exact absurd h (n3 d b f)
      · exact absurd h (n4 d b f)
      · rw [Bool.or_eq_true, Bool.and_eq_true] at h
        exact .inr (.inl ⟨c, h.imp id And.right, n1, fun c b f => ⟨n4 c b f, n3 c b f⟩, h'⟩)
    · cases h

/-- if nobody can move, nobody holds a lock in exclusive mode, ... -/
theorem no_writer {rank : Ptr → Nat} {fair : Bool} {s : State} (o : Ok rank s) (hall : ∀ i, i < s.n → step fair s i = none) (c : Ptr) :
    s.writing c = false := by
  refine Bool.eq_false_iff.2 fun h => ?_
  obtain ⟨j, b, f, e⟩ := (writing_iff o c).1 h
  have hj : j < s.n := Nat.lt_of_not_le fun hn => by rw [o.out j hn] at e; cases e
  rcases stuck o hj (hall j hj) with ⟨h, _⟩ | ⟨c, _, _, h, _⟩ | ⟨d, b, f, h, _⟩
  · rw [e] at h; cases h
  · exact absurd e (h _ _ _).1
  · rw [e] at h; cases h

/-- ... and nobody waits for one -/
theorem no_waiter {rank : Ptr → Nat} {fair : Bool} {s : State} (o : Ok rank s) (hall : ∀ i, i < s.n → step fair s i = none) (n : Nat) :
    ∀ c, rank c = n → s.waiting c = false := by
  induction n using Nat.strongRecOn with
  | ind n ih =>
    intro c hc
    refine Bool.eq_false_iff.2 fun h => ?_
    obtain ⟨j, b, f, e⟩ := (waiting_iff o c).1 h
    have hj : j < s.n := Nat.lt_of_not_le fun hn => by rw [o.out j hn] at e; cases e
    have hr : s.reading c = true := by
      rcases stuck o hj (hall j hj) with ⟨h, _⟩ | ⟨c, _, _, h, _⟩ | ⟨d, b, f, h, h'⟩
      · rw [e] at h; cases h
      · exact absurd e (h _ _ _).2
      · rw [e] at h; cases h
        rcases h' with h' | h'
        · exact h'
        · rw [no_writer o hall] at h'; cases h'
    obtain ⟨k, hf⟩ := (reading_iff o c).1 hr
    have hk : k < s.n := Nat.lt_of_not_le fun hn => by rw [o.out k hn] at hf; cases hf
    rcases stuck o hk (hall k hk) with ⟨h, _⟩ | ⟨c', h', _, _, h⟩ | ⟨d, b, f, h, _⟩
    · rw [h] at hf; cases hf
    · have hlt := h c hf
      rcases h' with h' | h'
      · rw [no_writer o hall] at h'; cases h'
      · rw [ih (rank c') (by omega) c' rfl] at h'; cases h'
    · rw [h] at hf; cases hf

theorem progress {rank : Ptr → Nat} {fair : Bool} {s : State} (o : Ok rank s) {i : Nat} (hb : Busy s i) :
    ∃ j s', step fair s j = some s' := by
  refine Classical.byContradiction fun hn => ?_
  have hall : ∀ j, j < s.n → step fair s j = none := by
    intro j _
    cases e : step fair s j with
    | none => rfl
    | some s' => exact absurd ⟨j, s', e⟩ hn
  rcases stuck o hb.1 (hall i hb.1) with ⟨h1, h2⟩ | ⟨c, h, _⟩ | ⟨d, b, f, h, _⟩
  · exact hb.2.elim (· h1) (· h2)
  · rcases h with h | h
    · rw [no_writer o hall] at h; cases h
    · rw [no_waiter o hall _ c rfl] at h; cases h
  · have := (waiting_iff o d).2 ⟨i, b, f, h⟩
    rw [no_waiter o hall _ d rfl] at this; cases this

end Rtti.CastRace
