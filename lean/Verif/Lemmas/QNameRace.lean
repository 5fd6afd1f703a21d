import Verif.Model.QNameRace
import Verif.Lemmas.QName
/-! The invariant behind C64. -/
set_option autoImplicit false
namespace Rtti.QNameRace
open Spec

/-- the name as the code builds it -/
inductive Named (w : World) : Nat → Str → Prop
  | top {p : Nat} : w.owner p = none → Named w p []
  | member {o p : Nat} {v : Str} : w.owner p = some o → Named w o v → Named w p (v ++ [':', ':'] ++ w.name p)

/-- the stack of waiting items leads from `p` to the item asked for -/
inductive Chain (w : World) (a : Nat) : Nat → List Nat → Prop
  | nil : Chain w a a []
  | cons {p c : Nat} {st : List Nat} : w.owner c = some p → Chain w a c st → Chain w a p (c :: st)

structure Ok (w : World) (ask : Nat → Nat) (s : State) : Prop where
  cache : ∀ p, s.cache p = [] ∨ Named w p (s.cache p)
  test : ∀ t p st, s.pc t = .test p st → Chain w (ask t) p st
  put : ∀ t p v st, s.pc t = .put p v st → Chain w (ask t) p st ∧ Named w p v
  get : ∀ t p st, s.pc t = .get p st → Chain w (ask t) p st ∧ Named w p (s.cache p)
  done : ∀ t v, s.pc t = .done v → Named w (ask t) v

theorem Named.unique {w : World} {p : Nat} {v v' : Str} (h : Named w p v) (h' : Named w p v') : v = v' := by
  induction h generalizing v' with
  | top ho =>
    cases h' with
    | top => rfl
    | member ho' => rw [ho] at ho'; cases ho'
  | member ho _ ih =>
    cases h' with
    | top ho' => rw [ho] at ho'; cases ho'
    | member ho' h' => rw [ho] at ho'; cases ho'; rw [ih h']

theorem spell_snoc (path : List Str) (n : Str) : spell (path ++ [n]) = spell path ++ [':', ':'] ++ n := by
  simp [spell]

theorem named_of_path {w : World} (h1 : w.owner 1 = none) {p : Nat} {path : List Str} (h : HasPath w p path) : Named w p (spell path) := by
  induction h with
  | global => exact .top h1
  | member ho _ ih => rw [spell_snoc]; exact .member ho ih

theorem Ok.step {w : World} {ask : Nat → Nat} {s : State} (h : Ok w ask s) (t : Nat) : Ok w ask (step w s t) := by
  unfold QNameRace.step
  split
  · rename_i p st e
    have ht := h.test t p st e
    split
    · split
      · rename_i ho
        refine ⟨h.cache, ?_, ?_, ?_, ?_⟩ <;> intro u <;> by_cases hu : u = t <;> simp only [upd, hu, if_true, if_false] <;> intros
        · grind
        · exact h.test u _ _ ‹_›
        · rename_i e'; cases e'; exact ⟨ht, .top ho⟩
        · exact h.put u _ _ _ ‹_›
        · grind
        · exact h.get u _ _ ‹_›
        · grind
        · exact h.done u _ ‹_›
      · rename_i o ho
        refine ⟨h.cache, ?_, ?_, ?_, ?_⟩ <;> intro u <;> by_cases hu : u = t <;> simp only [upd, hu, if_true, if_false] <;> intros
        · rename_i e'; cases e'; exact .cons ho ht
        · exact h.test u _ _ ‹_›
        · grind
        · exact h.put u _ _ _ ‹_›
        · grind
        · exact h.get u _ _ ‹_›
        · grind
        · exact h.done u _ ‹_›
    · rename_i hc
      refine ⟨h.cache, ?_, ?_, ?_, ?_⟩ <;> intro u <;> by_cases hu : u = t <;> simp only [upd, hu, if_true, if_false] <;> intros
      · grind
      · exact h.test u _ _ ‹_›
      · grind
      · exact h.put u _ _ _ ‹_›
      · rename_i e'; cases e'; exact ⟨ht, (h.cache p).resolve_left hc⟩
      · exact h.get u _ _ ‹_›
      · grind
      · exact h.done u _ ‹_›
  · rename_i p v st e
    obtain ⟨ht, hv⟩ := h.put t p v st e
    refine ⟨?_, ?_, ?_, ?_, ?_⟩
    · intro q
      simp only [upd]
      split
      · rename_i e'; subst e'; exact .inr hv
      · exact h.cache q
    all_goals intro u <;> by_cases hu : u = t <;> simp only [upd, hu, if_true, if_false] <;> intros
    · grind
    · exact h.test u _ _ ‹_›
    · grind
    · exact h.put u _ _ _ ‹_›
    · rename_i e'; cases e'; simp only [if_true]; exact ⟨ht, hv⟩
    · rename_i q st' e'
      obtain ⟨h1, h2⟩ := h.get u q st' e'
      refine ⟨h1, ?_⟩
      split
      · rename_i e''; rw [e'']; exact hv
      · exact h2
    · grind
    · exact h.done u _ ‹_›
  · rename_i p e
    obtain ⟨ht, hv⟩ := h.get t p [] e
    refine ⟨h.cache, ?_, ?_, ?_, ?_⟩ <;> intro u <;> by_cases hu : u = t <;> simp only [upd, hu, if_true, if_false] <;> intros
    · grind
    · exact h.test u _ _ ‹_›
    · grind
    · exact h.put u _ _ _ ‹_›
    · grind
    · exact h.get u _ _ ‹_›
    · rename_i e'; cases e'; cases ht; exact hv
    · exact h.done u _ ‹_›
  · rename_i p c st e
    obtain ⟨ht, hv⟩ := h.get t p _ e
    refine ⟨h.cache, ?_, ?_, ?_, ?_⟩ <;> intro u <;> by_cases hu : u = t <;> simp only [upd, hu, if_true, if_false] <;> intros
    · grind
    · exact h.test u _ _ ‹_›
    · rename_i e'; cases e'
      cases ht with
      | cons ho hc => exact ⟨hc, .member ho hv⟩
    · exact h.put u _ _ _ ‹_›
    · grind
    · exact h.get u _ _ ‹_›
    · grind
    · exact h.done u _ ‹_›
  · exact h

theorem Ok.run {w : World} {ask : Nat → Nat} (ts : List Nat) {s : State} (h : Ok w ask s) : Ok w ask (run w s ts) := by
  induction ts generalizing s with
  | nil => exact h
  | cons t ts ih => exact ih (h.step t)

/-- nothing is written if everything asked for is cached -/
theorem cached_run {w : World} {ask : Nat → Nat} {cache : Nat → Str} (hc : ∀ t, cache (ask t) ≠ []) (ts : List Nat) {s : State}
    (h : s.cache = cache ∧ ∀ t, s.pc t = .test (ask t) [] ∨ s.pc t = .get (ask t) [] ∨ s.pc t = .done (cache (ask t))) :
    (run w s ts).cache = cache ∧ ∀ t, (run w s ts).pc t = .test (ask t) [] ∨ (run w s ts).pc t = .get (ask t) [] ∨
      (run w s ts).pc t = .done (cache (ask t)) := by
  induction ts generalizing s with
  | nil => exact h
  | cons t ts ih =>
    refine ih ?_
    obtain ⟨h1, h2⟩ := h
    have hc := hc t
    unfold QNameRace.step
    rcases h2 t with e | e | e <;> rw [e] <;> dsimp only
    · rw [h1, if_neg hc]
      refine ⟨rfl, fun u => ?_⟩
      by_cases hu : u = t
      · subst hu; right; left; simp [upd]
      · simpa [upd, hu] using h2 u
    · refine ⟨h1, fun u => ?_⟩
      by_cases hu : u = t
      · subst hu; right; right; simp [upd, h1]
      · simpa [upd, hu] using h2 u
    · exact ⟨h1, h2⟩

/-! Which caches are written and which are read. -/

theorem run_append (w : World) (s : State) (a b : List Nat) : run w s (a ++ b) = run w (run w s a) b := by
  induction a generalizing s with
  | nil => rfl
  | cons t a ih => exact ih (step w s t)

theorem _root_.Rtti.Spec.Uncached.last {w : World} {c : Nat → Str} {x p : Nat} (h : Uncached w c x p) : c p = [] := by
  induction h with
  | here h => exact h
  | step _ _ _ ih => exact ih

theorem _root_.Rtti.Spec.Uncached.snoc {w : World} {c : Nat → Str} {x p o : Nat} (h : Uncached w c x p) (ho : w.owner p = some o)
    (hc : c o = []) : Uncached w c x o := by
  induction h with
  | here h => exact .step h ho (.here hc)
  | step h1 h2 _ ih => exact .step h1 h2 (ih ho)

/-- looked at for the name of `x`, maybe only read -/
def Visited (w : World) (c : Nat → Str) (x p : Nat) : Prop := p = x ∨ ∃ q, Uncached w c x q ∧ w.owner q = some p

theorem Visited.cold {w : World} {c : Nat → Str} {x p : Nat} (h : Visited w c x p) (hc : c p = []) : Uncached w c x p := by
  rcases h with rfl | ⟨q, hq, ho⟩
  · exact .here hc
  · exact hq.snoc ho hc

theorem _root_.Rtti.Spec.Uncached.visited {w : World} {c : Nat → Str} {x p : Nat} (h : Uncached w c x p) : Visited w c x p := by
  induction h with
  | here h => exact .inl rfl
  | step h1 h2 h3 ih =>
    rcases ih with rfl | ⟨q, hq, ho⟩
    · exact .inr ⟨_, .here h1, h2⟩
    · exact .inr ⟨q, .step h1 h2 hq, ho⟩

/-- what a thread is about to do concerns items visited, and it writes only what had no name -/
def PcOk (w : World) (c : Nat → Str) (x : Nat) : Pc → Prop
  | .test p st => Visited w c x p ∧ ∀ q ∈ st, Uncached w c x q
  | .put p _ st => Uncached w c x p ∧ ∀ q ∈ st, Uncached w c x q
  | .get p st => Visited w c x p ∧ ∀ q ∈ st, Uncached w c x q
  | .done _ => True

structure Visiting (w : World) (c : Nat → Str) (ask : Nat → Nat) (s : State) : Prop where
  kept : ∀ p, c p ≠ [] → s.cache p = c p
  pc : ∀ t, PcOk w c (ask t) (s.pc t)

theorem Visiting.start (w : World) (c : Nat → Str) (ask : Nat → Nat) : Visiting w c ask (start c ask) :=
  ⟨fun _ _ => rfl, fun _ => ⟨.inl rfl, fun _ h => by cases h⟩⟩

theorem Visiting.next {w : World} {c : Nat → Str} {ask : Nat → Nat} {s : State} (h : Visiting w c ask s) {t : Nat} {x : Pc} {cache : Nat → Str}
    (hk : ∀ p, c p ≠ [] → cache p = c p) (hx : PcOk w c (ask t) x) : Visiting w c ask ⟨cache, upd s.pc t x⟩ := by
  refine ⟨hk, fun u => ?_⟩
  by_cases hu : u = t
  · subst hu; simpa [upd] using hx
  · simpa [upd, hu] using h.pc u

theorem Visiting.step {w : World} {c : Nat → Str} {ask : Nat → Nat} {s : State} (h : Visiting w c ask s) (t : Nat) :
    Visiting w c ask (step w s t) := by
  have hp := h.pc t
  unfold QNameRace.step
  cases e : s.pc t with
  | test p st =>
    rw [e] at hp
    dsimp only
    by_cases hc : s.cache p = []
    · have h0 : c p = [] := Classical.byContradiction fun hne => hne (by rw [← h.kept p hne]; exact hc)
      rw [if_pos hc]
      cases ho : w.owner p with
      | none => exact h.next h.kept ⟨hp.1.cold h0, hp.2⟩
      | some o =>
        refine h.next h.kept ⟨.inr ⟨p, hp.1.cold h0, ho⟩, fun q hq => ?_⟩
        rcases List.mem_cons.1 hq with rfl | hq
        · exact hp.1.cold h0
        · exact hp.2 q hq
    · rw [if_neg hc]
      exact h.next h.kept hp
  | put p v st =>
    rw [e] at hp
    dsimp only
    refine h.next (fun q hq => ?_) ⟨hp.1.visited, hp.2⟩
    have : q ≠ p := fun e => hq (e ▸ hp.1.last)
    simpa [upd, this] using h.kept q hq
  | get p st =>
    rw [e] at hp
    cases st with
    | nil => exact h.next h.kept trivial
    | cons d st => exact h.next h.kept ⟨hp.2 d (by simp), fun q hq => hp.2 q (by simp [hq])⟩
  | done v => exact h

theorem Visiting.run {w : World} {c : Nat → Str} {ask : Nat → Nat} (ts : List Nat) {s : State} (h : Visiting w c ask s) :
    Visiting w c ask (run w s ts) := by
  induction ts generalizing s with
  | nil => exact h
  | cons t ts ih => exact ih (h.step t)

/-- a thread goes up to any item that has to be named, without writing -/
theorem climb {w : World} {c : Nat → Str} {t x p : Nat} (h : Uncached w c x p) {s : State} {st : List Nat} (hs : s.pc t = .test x st)
    (hc : s.cache = c) : ∃ n st', (run w s (List.replicate n t)).pc t = .test p st' ∧ (run w s (List.replicate n t)).cache = c ∧
      ∀ u, u ≠ t → (run w s (List.replicate n t)).pc u = s.pc u := by
  induction h generalizing s st with
  | here h => exact ⟨0, st, hs, hc, fun _ _ => rfl⟩
  | @step x o p h1 h2 _ ih =>
    have e : QNameRace.step w s t = { s with pc := upd s.pc t (.test o (x :: st)) } := by
      unfold QNameRace.step
      rw [hs]; dsimp only
      rw [hc, if_pos h1, h2]
    obtain ⟨n, st', a1, a2, a3⟩ := ih (s := QNameRace.step w s t) (st := x :: st) (by rw [e]; simp [upd]) (by rw [e]; exact hc)
    exact ⟨n + 1, st', a1, a2, fun u hu => by
      have := a3 u hu
      rw [List.replicate_succ]
      show (QNameRace.run w (QNameRace.step w s t) _).pc u = _
      rw [this, e]; simp [upd, hu]⟩

theorem _root_.Rtti.Spec.Uncached.path {w : World} (hg : w.owner World.globalNs = none) {c : Nat → Str} {x p : Nat} (h : Uncached w c x p)
    {path : List Str} (hp : HasPath w x path) : ∃ path', HasPath w p path' := by
  induction h generalizing path with
  | here _ => exact ⟨path, hp⟩
  | step _ ho _ ih =>
    cases hp with
    | global => rw [hg] at ho; cases ho
    | member ho' hp => rw [ho] at ho'; cases ho'; exact ih hp

theorem step_put {w : World} {s : State} {t p : Nat} {v : Str} {st : List Nat} (h : s.pc t = .put p v st) :
    QNameRace.step w s t = ⟨upd s.cache p v, upd s.pc t (.get p st)⟩ := by
  unfold QNameRace.step; rw [h]

/-- a thread that finds no name gets to write it -/
theorem reach_put {w : World} (hg : w.owner World.globalNs = none) {p t : Nat} {path : List Str} (hp : HasPath w p path) {s : State} {st : List Nat}
    (hs : s.pc t = .test p st) (hc : s.cache p = []) : ∃ n v, (run w s (List.replicate n t)).pc t = .put p v st ∧
      ∀ u, u ≠ t → (run w s (List.replicate n t)).pc u = s.pc u := by
  induction hp generalizing s st with
  | global =>
    have e : QNameRace.step w s t = { s with pc := upd s.pc t (.put World.globalNs [] st) } := by
      unfold QNameRace.step
      rw [hs]; dsimp only
      rw [if_pos hc, hg]
    refine ⟨1, [], ?_, fun u hu => ?_⟩
    · show (QNameRace.step w s t).pc t = _
      rw [e]; simp [upd]
    · show (QNameRace.step w s t).pc u = _
      rw [e]; simp [upd, hu]
  | @member o p path ho hop ih =>
    have e : QNameRace.step w s t = { s with pc := upd s.pc t (.test o (p :: st)) } := by
      unfold QNameRace.step
      rw [hs]; dsimp only
      rw [if_pos hc, ho]
    -- from `get o` on
    have fin : ∀ {s' : State}, s'.pc t = .get o (p :: st) → (∀ u, u ≠ t → s'.pc u = s.pc u) →
        ∃ v, (QNameRace.step w s' t).pc t = .put p v st ∧ ∀ u, u ≠ t → (QNameRace.step w s' t).pc u = s.pc u := by
      intro s' h1 h2
      refine ⟨s'.cache o ++ [':', ':'] ++ w.name p, ?_, fun u hu => ?_⟩
      · unfold QNameRace.step; rw [h1]; simp [upd]
      · unfold QNameRace.step; rw [h1]; simpa [upd, hu] using h2 u hu
    by_cases hco : s.cache o = []
    · obtain ⟨n, v, a1, a2⟩ := ih (s := QNameRace.step w s t) (st := p :: st) (by rw [e]; simp [upd]) (by rw [e]; exact hco)
      have e3 := step_put (w := w) a1
      obtain ⟨v', b1, b2⟩ := fin (s' := QNameRace.step w (QNameRace.run w (QNameRace.step w s t) (List.replicate n t)) t)
        (by rw [e3]; simp [upd])
        (fun u hu => by
          have h3 := a2 u hu
          rw [e3]
          simp only [upd, hu, if_false]
          rw [h3, e]; simp [upd, hu])
      have hrun : QNameRace.run w s (t :: (List.replicate n t ++ [t, t])) =
          QNameRace.step w (QNameRace.step w (QNameRace.run w (QNameRace.step w s t) (List.replicate n t)) t) t := by
        show QNameRace.run w (QNameRace.step w s t) (List.replicate n t ++ [t, t]) = _
        rw [run_append]; rfl
      have hrep : t :: (List.replicate n t ++ [t, t]) = List.replicate (n + 3) t := by
        rw [show [t, t] = List.replicate 2 t from rfl, List.replicate_append_replicate, ← List.replicate_succ]
      rw [hrep] at hrun
      exact ⟨n + 3, v', by rw [hrun]; exact b1, fun u hu => by rw [hrun]; exact b2 u hu⟩
    · have e2 : QNameRace.step w (QNameRace.step w s t) t = { s with pc := upd (upd s.pc t (.test o (p :: st))) t (.get o (p :: st)) } := by
        rw [e]
        unfold QNameRace.step
        simp [upd, hco]
      obtain ⟨v', b1, b2⟩ := fin (s' := QNameRace.step w (QNameRace.step w s t) t) (by rw [e2]; simp [upd]) (fun u hu => by rw [e2]; simp [upd, hu])
      exact ⟨3, v', b1, b2⟩

/-! How many steps a thread has left. -/

/-- at most `n` steps are left -/
def Left (w : World) : Pc → Nat → Prop
  | .test p st, n => ∃ path, HasPath w p path ∧ 3 * path.length + 3 + 2 * st.length ≤ n
  | .put _ _ st, n => 2 * st.length + 2 ≤ n
  | .get _ st, n => 2 * st.length + 1 ≤ n
  | .done _, _ => True

theorem Left.step {w : World} (hg : w.owner World.globalNs = none) {s : State} {t n : Nat} (h : Left w (s.pc t) (n + 1)) :
    Left w ((step w s t).pc t) n := by
  unfold QNameRace.step
  cases e : s.pc t with
  | test p st =>
    rw [e] at h
    obtain ⟨path, hp, hn⟩ := h
    dsimp only
    by_cases hc : s.cache p = []
    · rw [if_pos hc]
      cases ho : w.owner p with
      | none => simp only [upd, if_true, Left]; omega
      | some o =>
        simp only [upd, if_true, Left]
        cases hp with
        | global => rw [hg] at ho; cases ho
        | member ho' hp =>
          rw [ho] at ho'; cases ho'
          refine ⟨_, hp, ?_⟩
          simp only [List.length_append, List.length_cons, List.length_nil] at hn ⊢
          omega
    · rw [if_neg hc]
      simp only [upd, if_true, Left]; omega
  | put p v st =>
    rw [e] at h
    simp only [upd, if_true, Left] at h ⊢; omega
  | get p st =>
    rw [e] at h
    cases st with
    | nil => simp only [upd, if_true, Left]
    | cons d st => simp only [upd, if_true, Left, List.length_cons] at h ⊢; omega
  | done v =>
    dsimp only
    rw [e]; trivial

theorem step_other {w : World} {s : State} {t u : Nat} (h : u ≠ t) : (step w s t).pc u = s.pc u := by
  unfold QNameRace.step
  split
  · split
    · split <;> simp [upd, h]
    · simp [upd, h]
  all_goals simp [upd, h]

theorem Left.run {w : World} (hg : w.owner World.globalNs = none) {t : Nat} (ts : List Nat) {s : State} {n : Nat} (h : Left w (s.pc t) n)
    (hn : n ≤ ts.count t) : ∃ v, (run w s ts).pc t = .done v := by
  induction ts generalizing s n with
  | nil =>
    have : n = 0 := by simpa using hn
    subst this
    show ∃ v, s.pc t = .done v
    cases e : s.pc t with
    | done v => exact ⟨v, rfl⟩
    | test p st => rw [e] at h; obtain ⟨_, _, h⟩ := h; omega
    | put p v st => rw [e] at h; simp only [Left] at h; omega
    | get p st => rw [e] at h; simp only [Left] at h; omega
  | cons u ts ih =>
    by_cases hu : u = t
    · subst hu
      simp only [List.count_cons_self] at hn
      cases n with
      | zero =>
        refine ih (n := 0) (Left.step hg (n := 0) ?_) (by omega)
        cases e : s.pc u with
        | done v => trivial
        | test p st => rw [e] at h; obtain ⟨_, _, h⟩ := h; omega
        | put p v st => rw [e] at h; simp only [Left] at h; omega
        | get p st => rw [e] at h; simp only [Left] at h; omega
      | succ n => exact ih (Left.step hg h) (by omega)
    · refine ih (s := QNameRace.step w s u) (n := n) ?_ (by rwa [List.count_cons_of_ne hu] at hn)
      rw [step_other (Ne.symm hu)]; exact h

end Rtti.QNameRace
