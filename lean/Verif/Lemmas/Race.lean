import Verif.Model.Race
import Verif.Lemmas.Create
namespace Rtti.Race
open Rtti Spec

/-- the names for which the look-up is exact: non-empty, and full signatures -/
def Exact (k : LookKind) (n : Str) : Prop :=
  match k with
  | .byName => n ≠ []
  | .bySignature => '(' ∈ n

theorem wf_ptr_unique {l : ItemList} (w : l.Wf) {n : Str} (hn : n ≠ []) {x y : Item}
    (hx : x ∈ l.items) (hy : y ∈ l.items) (ex : x.name = n) (ey : y.name = n) : x = y := by
  have a := (w.get_iff n x).2 ⟨hn, hx, ex⟩
  have b := (w.get_iff n y).2 ⟨hn, hy, ey⟩
  rw [a] at b; simpa using b

theorem Exact.ne_nil {k n} (h : Exact k n) : n ≠ [] := by
  cases k with
  | byName => exact h
  | bySignature => rintro rfl; simp [Exact] at h

theorem look_iff {k : LookKind} {l : ItemList} (w : l.Wf) {n : Str} (hn : Exact k n) (p : Ptr) :
    look k l n = some p ↔ ⟨p, n⟩ ∈ l.items := by
  cases k with
  | byName =>
    simp only [look, Option.map_eq_some_iff]
    constructor
    · rintro ⟨it, h, rfl⟩
      obtain ⟨_, h1, rfl⟩ := (w.get_iff n it).1 h
      exact h1
    · intro h
      exact ⟨_, (w.get_iff n _).2 ⟨hn, h, rfl⟩, rfl⟩
  | bySignature =>
    have hden : ∀ m : Str, Denotes n m ↔ m = n := by
      intro m
      constructor
      · rintro (h | ⟨_, _, h⟩)
        · exact h
        · exact absurd hn h
      · exact .inl
    obtain ⟨r, e, h1, h2⟩ := findMethod_spec n l.items
    simp only [look, e]
    cases r with
    | none =>
      simp only [reduceCtorEq, false_iff]
      intro h
      exact h2.1 rfl _ h (.inl rfl)
    | some it =>
      obtain ⟨pre, post, h3, h4, h5⟩ := (h1 it).1 rfl
      have hname := (hden _).1 h4
      have hit : it ∈ l.items := by rw [h3]; simp
      simp only [Option.some.injEq]
      constructor
      · rintro rfl; rw [← hname]; exact hit
      · intro h
        rw [wf_ptr_unique w (Exact.ne_nil hn) hit h hname rfl]

theorem look_none {k : LookKind} {l : ItemList} (w : l.Wf) {n : Str} (hn : Exact k n) :
    look k l n = none ↔ ∀ x ∈ l.items, x.name ≠ n := by
  constructor
  · rintro h x hx rfl
    have := (look_iff w hn x.ptr).2 hx
    rw [h] at this; cases this
  · intro h
    cases e : look k l n with
    | none => rfl
    | some p => exact absurd rfl (h _ ((look_iff w hn p).1 e))

def Pc.req : Pc → Option Req
  | .idle => none
  | .start r | .miss r | .checked r | .allocated r _ | .refused r _ | .deleted r | .added r _ _ => some r

/-- the object a thread has allocated and not yet given away -/
def Pc.holds : Pc → Option Ptr
  | .allocated _ p | .refused _ p => some p
  | _ => none

def State.withAlloc (s : State) (r : Req) (th : Nat → Thread) : State :=
  ⟨s.list, s.next + 1, upd s.alive s.next true, upd s.typeOf s.next r.type, s.valid, s.metaClass, th⟩

/-- steps a call still has to make, at most -/
def Pc.todo : Pc → Nat
  | .idle => 0
  | .deleted _ => 1
  | .added _ _ _ => 1
  | .refused _ _ => 2
  | .allocated _ _ => 3
  | .checked _ => 4
  | .miss _ => 5
  | .start _ => 6

/-- facts about one thread -/
structure TInv (Ok : Req → Prop) (s : State) (t : Thread) : Prop where
  todo : ∀ r ∈ t.todo, Ok r
  req : ∀ r, t.pc.req = some r → Ok r
  held : ∀ r p, t.pc = .allocated r p ∨ t.pc = .refused r p →
    s.alive p = true ∧ (∀ x ∈ s.list.items, x.ptr ≠ p) ∧ s.typeOf p = r.type
  refused : ∀ r, (∃ p, t.pc = .refused r p) ∨ t.pc = .deleted r → ∃ x ∈ s.list.items, x.name = r.name
  added : ∀ r ty p, t.pc = .added r ty p → ⟨p, r.name⟩ ∈ s.list.items ∧ r.type = some ty
  results : ∀ r o, (r, o) ∈ t.results → Ok r ∧
    match o with
    | .obj p => ⟨p, r.name⟩ ∈ s.list.items
    | .null => False
    | .threw _ => r.type ≠ none

structure RInv (Ok : Req → Prop) (s : State) : Prop where
  wf : s.list.Wf
  lt : ∀ p, s.alive p = true → p < s.next
  items : ∀ x ∈ s.list.items, s.alive x.ptr = true ∧ ∃ r, Ok r ∧ r.name = x.name ∧ s.typeOf x.ptr = r.type
  uniq : ∀ i j p, (s.threads i).pc.holds = some p → (s.threads j).pc.holds = some p → i = j
  owned : ∀ p, s.alive p = true → (∃ x ∈ s.list.items, x.ptr = p) ∨ ∃ i, (s.threads i).pc.holds = some p
  thr : ∀ i, TInv Ok s (s.threads i)

theorem holds_iff {pc : Pc} {p : Ptr} : pc.holds = some p ↔ ∃ r, pc = .allocated r p ∨ pc = .refused r p := by
  cases pc <;> simp [Pc.holds]

/-- a step that leaves the shared part alone and holds nothing before and after -/
theorem RInv.local_step {Ok} {s s' : State} (h : RInv Ok s) (i : Nat) (t' : Thread)
    (hl : s'.list = s.list) (hn : s'.next = s.next) (ha : s'.alive = s.alive) (hty : s'.typeOf = s.typeOf)
    (hth : s'.threads = upd s.threads i t') (h0 : (s.threads i).pc.holds = none)
    (h1 : t'.pc.holds = none) (ht : TInv Ok s t') : RInv Ok s' := by
  have htr : ∀ t, TInv Ok s t → TInv Ok s' t := by
    intro t h
    refine ⟨h.todo, h.req, ?_, ?_, ?_, ?_⟩
    · rw [hl, ha, hty]; exact h.held
    · rw [hl]; exact h.refused
    · rw [hl]; exact h.added
    · rw [hl]; exact h.results
  have hh : ∀ j p, (s'.threads j).pc.holds = some p ↔ (s.threads j).pc.holds = some p := by
    intro j p
    rw [hth]
    by_cases e : j = i
    · subst e; simp [h0, h1]
    · rw [upd_ne _ _ e]
  refine ⟨by rw [hl]; exact h.wf, by rw [ha, hn]; exact h.lt, by rw [hl, ha, hty]; exact h.items, ?_, ?_, ?_⟩
  · intro a b p; rw [hh, hh]; exact h.uniq a b p
  · intro p hp
    rw [ha] at hp
    rw [hl]
    rcases h.owned p hp with h | ⟨j, h⟩
    · exact .inl h
    · exact .inr ⟨j, (hh j p).2 h⟩
  · intro j
    rw [hth]
    by_cases e : j = i
    · subst e; simp only [upd_same]; exact htr _ ht
    · rw [upd_ne _ _ e]; exact htr _ (h.thr j)

theorem TInv.finish {Ok} {s : State} {t : Thread} (h : TInv Ok s t) (r : Req) (o : Outcome)
    (hr : Ok r) (ho : match o with
      | .obj p => ⟨p, r.name⟩ ∈ s.list.items
      | .null => False
      | .threw _ => r.type ≠ none) : TInv Ok s (t.finish r o) := by
  refine ⟨h.todo, by simp [Thread.finish, Pc.req], by simp [Thread.finish], by simp [Thread.finish],
    by simp [Thread.finish], ?_⟩
  intro r' o' hm
  simp only [Thread.finish, List.mem_append, List.mem_singleton] at hm
  rcases hm with hm | hm
  · exact h.results r' o' hm
  · cases hm; exact ⟨hr, ho⟩

theorem TInv.move {Ok} {s : State} {t : Thread} (h : TInv Ok s t) (pc : Pc) (todo : List Req)
    (hto : ∀ r ∈ todo, Ok r) (hreq : ∀ r, pc.req = some r → Ok r) (hh : pc.holds = none)
    (hd : ∀ r, pc ≠ .deleted r) (ha : ∀ r t p, pc ≠ .added r t p) :
    TInv Ok s { t with todo := todo, pc := pc } := by
  refine ⟨hto, hreq, ?_, ?_, ?_, h.results⟩
  · intro r p hp
    have : pc.holds = some p := holds_iff.2 ⟨r, hp⟩
    rw [hh] at this; cases this
  · rintro r (⟨p, hp⟩ | hp)
    · have : pc.holds = some p := holds_iff.2 ⟨r, .inr hp⟩
      rw [hh] at this; cases this
    · exact absurd hp (hd r)
  · intro r ty p hp; exact absurd hp (ha r ty p)

theorem RInv.step {k : LookKind} {Ok} (hOk : ∀ r, Ok r → Exact k r.name) {s : State} (h : RInv Ok s)
    (i : Nat) : RInv Ok (step k s i) := by
  have ht := h.thr i
  unfold Race.step
  dsimp only
  cases hpc : (s.threads i).pc with
  | idle =>
    dsimp only
    cases htd : (s.threads i).todo with
    | nil => exact h
    | cons r rest =>
      simp only
      refine h.local_step i _ rfl rfl rfl rfl rfl (by rw [hpc]; rfl) rfl
        (ht.move (.start r) rest ?_ ?_ rfl (by simp) (by simp))
      · intro r' hr'; exact ht.todo r' (by rw [htd]; simp [hr'])
      · intro r' hr'; cases hr'; exact ht.todo r (by rw [htd]; simp)
  | start r =>
    dsimp only
    have hr := ht.req r (by rw [hpc]; rfl)
    cases hlk : look k s.list r.name with
    | some p =>
      simp only
      exact h.local_step i _ rfl rfl rfl rfl rfl (by rw [hpc]; rfl) rfl
        (ht.finish r (.obj p) hr ((look_iff h.wf (hOk r hr) p).1 hlk))
    | none =>
      simp only
      refine h.local_step i _ rfl rfl rfl rfl rfl (by rw [hpc]; rfl) rfl
        (ht.move (.miss r) _ ht.todo ?_ rfl (by simp) (by simp))
      intro r' hr'; cases hr'; exact hr
  | miss r =>
    dsimp only
    have hr := ht.req r (by rw [hpc]; rfl)
    have hmv : RInv Ok { s with threads := upd s.threads i { s.threads i with pc := .checked r } } := by
      refine h.local_step i _ rfl rfl rfl rfl rfl (by rw [hpc]; rfl) rfl
        (ht.move (.checked r) _ ht.todo ?_ rfl (by simp) (by simp))
      intro r' hr'; cases hr'; exact hr
    cases hty : r.type with
    | none => exact hmv
    | some ty =>
      simp only
      split
      · exact h.local_step i _ rfl rfl rfl rfl rfl (by rw [hpc]; rfl) rfl
          (ht.finish r (.threw _) hr (by simp [hty]))
      · split
        · exact h.local_step i _ rfl rfl rfl rfl rfl (by rw [hpc]; rfl) rfl
            (ht.finish r (.threw _) hr (by simp [hty]))
        · exact hmv
  | checked r =>
    dsimp only
    have hr := ht.req r (by rw [hpc]; rfl)
    have hfresh : s.alive s.next = false := by
      cases e : s.alive s.next with
      | false => rfl
      | true => exact absurd (h.lt _ e) (Nat.lt_irrefl _)
    have hlist : ∀ x ∈ s.list.items, x.ptr ≠ s.next := by
      intro x hx e
      have := (h.items x hx).1
      rw [e, hfresh] at this; cases this
    have hheld : ∀ j p, (s.threads j).pc.holds = some p → p ≠ s.next := by
      intro j p hp e
      obtain ⟨r', hr'⟩ := holds_iff.1 hp
      have := ((h.thr j).held r' p hr').1
      rw [e, hfresh] at this; cases this
    have htr : ∀ t, TInv Ok s t → (∀ p, t.pc.holds = some p → p ≠ s.next) →
        ∀ th, TInv Ok (s.withAlloc r th) t := by
      intro t h hne th
      refine ⟨h.todo, h.req, ?_, h.refused, h.added, h.results⟩
      intro r' p hp
      have hne := hne p (holds_iff.2 ⟨r', hp⟩)
      simp only [State.withAlloc, upd_ne _ _ hne]
      exact h.held r' p hp
    refine ⟨h.wf, ?_, ?_, ?_, ?_, ?_⟩
    · intro p hp
      simp only at hp ⊢
      by_cases e : p = s.next
      · omega
      · rw [upd_ne _ _ e] at hp; have := h.lt p hp; omega
    · intro x hx
      have hne := hlist x hx
      simp only [upd_ne _ _ hne]
      exact h.items x hx
    · intro a b p
      simp only
      by_cases ea : a = i
      · subst ea
        by_cases eb : b = a
        · intros; exact eb.symm
        · simp only [upd_same, upd_ne _ _ eb, Pc.holds]
          intro h1 h2
          exact absurd (Option.some.inj h1).symm (hheld b p h2)
      · by_cases eb : b = i
        · subst eb
          simp only [upd_same, upd_ne _ _ ea, Pc.holds]
          intro h1 h2
          exact absurd (Option.some.inj h2).symm (hheld a p h1)
        · simp only [upd_ne _ _ ea, upd_ne _ _ eb]; exact h.uniq a b p
    · intro p hp
      simp only at hp ⊢
      by_cases e : p = s.next
      · right; exact ⟨i, by simp [Pc.holds, e]⟩
      · rw [upd_ne _ _ e] at hp
        rcases h.owned p hp with h | ⟨j, hj⟩
        · exact .inl h
        · right
          refine ⟨j, ?_⟩
          have : j ≠ i := by rintro rfl; rw [hpc] at hj; cases hj
          rw [upd_ne _ _ this]; exact hj
    · intro j
      simp only
      by_cases e : j = i
      · subst e
        simp only [upd_same]
        refine ⟨ht.todo, ?_, ?_, by simp, by simp, ht.results⟩
        · intro r' hr'; cases hr'; exact hr
        · rintro r' p (hp | hp)
          · injection hp with h1 h2; subst h1; subst h2
            exact ⟨by simp, hlist, by simp⟩
          · cases hp
      · rw [upd_ne _ _ e]
        exact htr _ (h.thr j) (hheld j) _
  | allocated r p =>
    dsimp only
    have hr := ht.req r (by rw [hpc]; rfl)
    obtain ⟨hal, hnl, hty⟩ := ht.held r p (.inl hpc)
    have hadd := h.wf.add_spec ⟨p, r.name⟩
    have hwf := h.wf.add (some ⟨p, r.name⟩)
    by_cases hdup : ∃ x ∈ s.list.items, x.name = r.name
    · rw [if_pos (.inr hdup)] at hadd
      rw [hadd]
      simp only [Bool.false_eq_true, if_false]
      have htr : ∀ t, TInv Ok s t → ∀ th, TInv Ok { s with threads := th } t :=
        fun t h th => ⟨h.todo, h.req, h.held, h.refused, h.added, h.results⟩
      have hh : ∀ j q, ((upd s.threads i { s.threads i with pc := .refused r p }) j).pc.holds = some q ↔
          (s.threads j).pc.holds = some q := by
        intro j q
        by_cases e : j = i
        · subst e; simp [hpc, Pc.holds]
        · rw [upd_ne _ _ e]
      refine ⟨h.wf, h.lt, h.items, ?_, ?_, ?_⟩
      · intro a b q; simp only; rw [hh, hh]; exact h.uniq a b q
      · intro q hq
        rcases h.owned q hq with h | ⟨j, hj⟩
        · exact .inl h
        · exact .inr ⟨j, (hh j q).2 hj⟩
      · intro j
        simp only
        by_cases e : j = i
        · subst e
          simp only [upd_same]
          refine ⟨ht.todo, ?_, ?_, ?_, by simp, ht.results⟩
          · intro r' hr'; cases hr'; exact hr
          · rintro r' q (hq | hq)
            · cases hq
            · injection hq with h1 h2; subst h1; subst h2; exact ⟨hal, hnl, hty⟩
          · rintro r' (⟨q, hq⟩ | hq)
            · injection hq with h1 h2; subst h1; exact hdup
            · cases hq
        · rw [upd_ne _ _ e]; exact htr _ (h.thr j) _
    · have hnp : ¬ ∃ x ∈ s.list.items, x.ptr = p := by
        rintro ⟨x, hx, e⟩; exact hnl x hx e
      rw [if_neg (by simp only [not_or]; exact ⟨hnp, hdup⟩)] at hadd
      obtain ⟨hit, hok⟩ := hadd
      simp only [hok, if_true]
      have hmem : ⟨p, r.name⟩ ∈ (s.list.add (some ⟨p, r.name⟩)).1.items := by rw [hit]; simp
      -- facts about other threads in the new state
      have htr : ∀ j, j ≠ i → ∀ th, TInv Ok { s with list := (s.list.add (some ⟨p, r.name⟩)).1, threads := th }
          (s.threads j) := by
        intro j hj th
        have h' := h.thr j
        refine ⟨h'.todo, h'.req, ?_, ?_, ?_, ?_⟩
        · intro r' q hq
          obtain ⟨a, b, c⟩ := h'.held r' q hq
          refine ⟨a, ?_, c⟩
          intro x hx
          rw [show ({ s with list := (s.list.add (some ⟨p, r.name⟩)).1, threads := th } : State).list.items
            = s.list.items ++ [⟨p, r.name⟩] from hit] at hx
          rcases List.mem_append.1 hx with hx | hx
          · exact b x hx
          · simp only [List.mem_singleton] at hx
            subst hx
            intro e
            simp only at e
            subst e
            exact hj (h.uniq j i p (holds_iff.2 ⟨r', hq⟩) (by rw [hpc]; rfl))
        · intro r' hr'
          obtain ⟨x, hx, e⟩ := h'.refused r' hr'
          exact ⟨x, by simp only; rw [hit]; exact List.mem_append_left _ hx, e⟩
        · intro r' ty q hq
          obtain ⟨a, b⟩ := h'.added r' ty q hq
          exact ⟨by simp only; rw [hit]; exact List.mem_append_left _ a, b⟩
        · intro r' o ho
          obtain ⟨a, b⟩ := h'.results r' o ho
          refine ⟨a, ?_⟩
          cases o with
          | obj q => simp only at b ⊢; rw [hit]; exact List.mem_append_left _ b
          | null => exact b
          | threw e => exact b
      have hres : ∀ r' o, (r', o) ∈ (s.threads i).results → Ok r' ∧
          match o with
          | .obj q => ⟨q, r'.name⟩ ∈ (s.list.add (some ⟨p, r.name⟩)).1.items
          | .null => False
          | .threw _ => r'.type ≠ none := by
        intro r' o ho
        obtain ⟨a, b⟩ := ht.results r' o ho
        refine ⟨a, ?_⟩
        cases o with
        | obj q => simp only at b ⊢; rw [hit]; exact List.mem_append_left _ b
        | null => exact b
        | threw e => exact b
      -- common part, for a new thread state that holds nothing
      have main : ∀ t' : Thread, t'.pc.holds = none →
          TInv Ok { s with list := (s.list.add (some ⟨p, r.name⟩)).1, threads := upd s.threads i t' } t' →
          RInv Ok { s with list := (s.list.add (some ⟨p, r.name⟩)).1, threads := upd s.threads i t' } := by
        intro t' h0 ht'
        have hh : ∀ j q, ((upd s.threads i t') j).pc.holds = some q ↔
            j ≠ i ∧ (s.threads j).pc.holds = some q := by
          intro j q
          by_cases e : j = i
          · subst e; simp [h0]
          · rw [upd_ne _ _ e]; simp [e]
        refine ⟨hwf, h.lt, ?_, ?_, ?_, ?_⟩
        · intro x hx
          simp only at hx
          rw [hit] at hx
          rcases List.mem_append.1 hx with hx | hx
          · exact h.items x hx
          · simp only [List.mem_singleton] at hx
            subst hx
            exact ⟨hal, r, hr, rfl, hty⟩
        · intro a b q
          simp only
          rw [hh, hh]
          rintro ⟨_, h1⟩ ⟨_, h2⟩
          exact h.uniq a b q h1 h2
        · intro q hq
          simp only at hq ⊢
          rcases h.owned q hq with ⟨x, hx, e⟩ | ⟨j, hj⟩
          · left; exact ⟨x, by rw [hit]; exact List.mem_append_left _ hx, e⟩
          · by_cases e : j = i
            · subst e
              rw [hpc] at hj
              cases hj
              exact .inl ⟨_, hmem, rfl⟩
            · exact .inr ⟨j, (hh j q).2 ⟨e, hj⟩⟩
        · intro j
          simp only
          by_cases e : j = i
          · subst e; simp only [upd_same]; exact ht'
          · rw [upd_ne _ _ e]; exact htr j e _
      cases hrt : r.type with
      | none =>
        simp only
        refine main _ rfl ⟨ht.todo, by simp [Thread.finish, Pc.req], by simp [Thread.finish],
          by simp [Thread.finish], by simp [Thread.finish], ?_⟩
        intro r' o ho
        simp only [Thread.finish, List.mem_append, List.mem_singleton] at ho
        rcases ho with ho | ho
        · exact hres r' o ho
        · cases ho; exact ⟨hr, hmem⟩
      | some ty =>
        simp only
        refine main _ rfl ⟨ht.todo, ?_, by simp, by simp, ?_, hres⟩
        · intro r' hr'; cases hr'; exact hr
        · intro r' ty' q hq
          injection hq with h1 h2 h3; subst h1; subst h2; subst h3
          exact ⟨hmem, hrt⟩
  | refused r p =>
    dsimp only
    have hr := ht.req r (by rw [hpc]; rfl)
    obtain ⟨hal, hnl, hty⟩ := ht.held r p (.inr hpc)
    have hh : ∀ j q, ((upd s.threads i { s.threads i with pc := .deleted r }) j).pc.holds = some q ↔
        j ≠ i ∧ (s.threads j).pc.holds = some q := by
      intro j q
      by_cases e : j = i
      · subst e; simp [Pc.holds]
      · rw [upd_ne _ _ e]; simp [e]
    have hother : ∀ j q, j ≠ i → (s.threads j).pc.holds = some q → q ≠ p := by
      intro j q hj hq e
      subst e
      exact hj (h.uniq j i q hq (by rw [hpc]; rfl))
    refine ⟨h.wf, ?_, ?_, ?_, ?_, ?_⟩
    · intro q hq
      simp only at hq ⊢
      by_cases e : q = p
      · subst e; exact h.lt q hal
      · rw [upd_ne _ _ e] at hq; exact h.lt q hq
    · intro x hx
      have hne := hnl x hx
      simp only [upd_ne _ _ hne]
      exact h.items x hx
    · intro a b q
      simp only
      rw [hh, hh]
      rintro ⟨_, h1⟩ ⟨_, h2⟩
      exact h.uniq a b q h1 h2
    · intro q hq
      simp only at hq ⊢
      by_cases e : q = p
      · subst e; simp at hq
      · rw [upd_ne _ _ e] at hq
        rcases h.owned q hq with h1 | ⟨j, hj⟩
        · exact .inl h1
        · right
          refine ⟨j, (hh j q).2 ⟨?_, hj⟩⟩
          rintro rfl
          rw [hpc] at hj
          exact e (Option.some.inj hj).symm
    · intro j
      simp only
      by_cases e : j = i
      · subst e
        simp only [upd_same]
        refine ⟨ht.todo, ?_, by simp, ?_, by simp, ht.results⟩
        · intro r' hr'; cases hr'; exact hr
        · rintro r' (⟨q, hq⟩ | hq)
          · cases hq
          · injection hq with h1; subst h1
            exact ht.refused r (.inl ⟨p, hpc⟩)
      · rw [upd_ne _ _ e]
        have h' := h.thr j
        refine ⟨h'.todo, h'.req, ?_, h'.refused, h'.added, h'.results⟩
        intro r' q hq
        have hne := hother j q e (holds_iff.2 ⟨r', hq⟩)
        simp only [upd_ne _ _ hne]
        exact h'.held r' q hq
  | deleted r =>
    dsimp only
    have hr := ht.req r (by rw [hpc]; rfl)
    obtain ⟨x, hx, hxn⟩ := ht.refused r (.inr hpc)
    have hlk : look k s.list r.name = some x.ptr := by
      rw [look_iff h.wf (hOk r hr), ← hxn]; exact hx
    rw [hlk]
    exact h.local_step i _ rfl rfl rfl rfl rfl (by rw [hpc]; rfl) rfl
      (ht.finish r (.obj x.ptr) hr (by simp only; rw [← hxn]; exact hx))
  | added r ty p =>
    dsimp only
    have hr := ht.req r (by rw [hpc]; rfl)
    exact h.local_step i _ rfl rfl rfl rfl rfl (by rw [hpc]; rfl) rfl
      (ht.finish r (.obj p) hr (ht.added r ty p hpc).1)

theorem RInv.init {Ok} (valid : TypeId → Bool) (programs : Nat → List Req)
    (h : ∀ i, ∀ r ∈ programs i, Ok r) : RInv Ok (init valid programs) := by
  refine ⟨ItemList.Wf.empty, by simp [Race.init], by simp [Race.init, ItemList.empty],
    by simp [Race.init, Pc.holds], by simp [Race.init], ?_⟩
  intro i
  exact ⟨h i, by simp [Race.init, Pc.req], by simp [Race.init], by simp [Race.init], by simp [Race.init],
    by simp [Race.init]⟩

theorem RInv.run {k : LookKind} {Ok} (hOk : ∀ r, Ok r → Exact k r.name) {s : State} (h : RInv Ok s)
    (sched : List Nat) : RInv Ok (run k s sched) := by
  induction sched generalizing s with
  | nil => exact h
  | cons i is ih => exact ih (h.step hOk i)

/-! ### refusals, and calls that nobody interrupts -/

/-- which class objects `TypeInfo::metaClass` holds, and why calls were refused -/
structure MInv (s : State) : Prop where
  mc : ∀ ty p, s.metaClass ty = some p → p < s.next ∧ s.typeOf p = some ty ∧ ∃ x ∈ s.list.items, x.ptr = p
  add : ∀ i r ty p, (s.threads i).pc = .added r ty p → p < s.next ∧ s.typeOf p = some ty ∧ ∃ x ∈ s.list.items, x.ptr = p
  thr : ∀ i r e, (r, .threw e) ∈ (s.threads i).results → ∃ ty, r.type = some ty ∧
    ((e = .invalidTypeId ∧ s.valid ty = false) ∨ (e = .duplicateClass ∧ s.valid ty = true ∧ s.metaClass ty ≠ none))

theorem MInv.keep {s s' : State} (h : MInv s) (i : Nat) (t' : Thread) (hl : ∀ x ∈ s.list.items, x ∈ s'.list.items)
    (hn : s.next ≤ s'.next) (hty : ∀ p, p < s.next → s'.typeOf p = s.typeOf p) (hv : s'.valid = s.valid)
    (hm : ∀ ty p, s'.metaClass ty = some p → s.metaClass ty = some p ∨ p < s'.next ∧ s'.typeOf p = some ty ∧ ∃ x ∈ s'.list.items, x.ptr = p)
    (hm' : ∀ ty, s.metaClass ty ≠ none → s'.metaClass ty ≠ none)
    (hth : s'.threads = upd s.threads i t')
    (ha : ∀ r ty p, t'.pc = .added r ty p → p < s'.next ∧ s'.typeOf p = some ty ∧ ∃ x ∈ s'.list.items, x.ptr = p)
    (hr : ∀ r e, (r, .threw e) ∈ t'.results → (r, .threw e) ∈ (s.threads i).results ∨ ∃ ty, r.type = some ty ∧
      ((e = .invalidTypeId ∧ s.valid ty = false) ∨ (e = .duplicateClass ∧ s.valid ty = true ∧ s.metaClass ty ≠ none))) : MInv s' := by
  have up : ∀ {ty p}, (p < s.next ∧ s.typeOf p = some ty ∧ ∃ x ∈ s.list.items, x.ptr = p) →
      p < s'.next ∧ s'.typeOf p = some ty ∧ ∃ x ∈ s'.list.items, x.ptr = p := by
    rintro ty p ⟨a, b, x, c, d⟩
    exact ⟨by omega, by rw [hty p a, b], x, hl x c, d⟩
  have why : ∀ {r : Req} {e : Err}, (∃ ty, r.type = some ty ∧
      ((e = .invalidTypeId ∧ s.valid ty = false) ∨ (e = .duplicateClass ∧ s.valid ty = true ∧ s.metaClass ty ≠ none))) →
      ∃ ty, r.type = some ty ∧
      ((e = .invalidTypeId ∧ s'.valid ty = false) ∨ (e = .duplicateClass ∧ s'.valid ty = true ∧ s'.metaClass ty ≠ none)) := by
    rintro r e ⟨ty, a, b⟩
    rw [hv]
    exact ⟨ty, a, b.imp_right fun ⟨x, y, z⟩ => ⟨x, y, hm' ty z⟩⟩
  refine ⟨fun ty p h' => (hm ty p h').elim (fun h' => up (h.mc ty p h')) id, fun j r ty p hj => ?_, fun j r e hj => ?_⟩
  · rw [hth] at hj
    by_cases e : j = i
    · subst e; rw [upd_same] at hj; exact ha r ty p hj
    · rw [upd_ne _ _ e] at hj; exact up (h.add j r ty p hj)
  · rw [hth] at hj
    by_cases e' : j = i
    · subst e'; rw [upd_same] at hj
      exact why ((hr r e hj).elim (h.thr j r e) id)
    · rw [upd_ne _ _ e'] at hj; exact why (h.thr j r e hj)

theorem MInv.step {k : LookKind} {Ok} {s : State} (hi : RInv Ok s) (h : MInv s) (i : Nat) : MInv (step k s i) := by
  -- a step that only moves the thread
  have move : ∀ t' : Thread, t'.results = (s.threads i).results → (∀ r ty p, t'.pc ≠ .added r ty p) →
      MInv { s with threads := upd s.threads i t' } := fun t' h1 h2 =>
    h.keep i t' (fun _ h => h) (Nat.le_refl _) (fun _ _ => rfl) rfl (fun _ _ h => .inl h) (fun _ h => h) rfl
      (fun r ty p e => absurd e (h2 r ty p)) fun r e hm => .inl (by rw [← h1]; exact hm)
  have fin : ∀ r o, (∀ e, o = .threw e → ∃ ty, r.type = some ty ∧
      ((e = .invalidTypeId ∧ s.valid ty = false) ∨ (e = .duplicateClass ∧ s.valid ty = true ∧ s.metaClass ty ≠ none))) →
      MInv { s with threads := upd s.threads i ((s.threads i).finish r o) } := fun r o ho =>
    h.keep i _ (fun _ h => h) (Nat.le_refl _) (fun _ _ => rfl) rfl (fun _ _ h => .inl h) (fun _ h => h) rfl
      (fun _ _ _ e => by simp [Thread.finish] at e) fun r' e hm => by
        simp only [Thread.finish, List.mem_append, List.mem_singleton, Prod.mk.injEq] at hm
        rcases hm with hm | ⟨rfl, hm⟩
        · exact .inl hm
        · exact .inr (ho e hm.symm)
  have ht := hi.thr i
  unfold Race.step
  dsimp only
  cases hpc : (s.threads i).pc with
  | idle =>
    cases htd : (s.threads i).todo with
    | nil => exact h
    | cons r rest => exact move _ rfl (by simp)
  | start r =>
    dsimp only
    cases look k s.list r.name with
    | some p => exact fin r _ (by simp)
    | none => exact move _ rfl (by simp)
  | miss r =>
    dsimp only
    cases hty : r.type with
    | none => exact move _ rfl (by simp)
    | some ty =>
      dsimp only
      by_cases hv : s.valid ty = true
      · cases hm : s.metaClass ty with
        | some p =>
          simp only [hv, Bool.not_true, Bool.false_eq_true, if_false, Option.isSome_some, if_true]
          exact fin r _ fun e he => by cases he; exact ⟨ty, hty, .inr ⟨rfl, hv, by rw [hm]; simp⟩⟩
        | none =>
          simp only [hv, Bool.not_true, Bool.false_eq_true, if_false, Option.isSome_none]
          exact move _ rfl (by simp)
      · have hv : s.valid ty = false := by simpa using hv
        simp only [hv, Bool.not_false, if_true]
        exact fin r _ fun e he => by cases he; exact ⟨ty, hty, .inl ⟨rfl, hv⟩⟩
  | checked r =>
    refine h.keep i _ (fun _ h => h) (Nat.le_succ _) (fun p hp => ?_) rfl (fun _ _ h => .inl h) (fun _ h => h) rfl (by simp) fun _ _ h => .inl h
    have : p ≠ s.next := by omega
    simp [upd_ne _ _ this]
  | allocated r p =>
    dsimp only
    obtain ⟨hal, hnl, hty⟩ := ht.held r p (.inl hpc)
    have hlt := hi.lt p hal
    have hsp := hi.wf.add_spec ⟨p, r.name⟩
    split at hsp
    case isFalse =>
      obtain ⟨hmem, hb⟩ := hsp
      have hsub : ∀ x ∈ s.list.items, x ∈ (s.list.add (some ⟨p, r.name⟩)).1.items := fun x hx => by rw [hmem]; simp [hx]
      rw [if_pos hb]
      cases hrt : r.type with
      | none =>
        refine h.keep i _ hsub (Nat.le_refl _) (fun _ _ => rfl) rfl (fun _ _ h => .inl h) (fun _ h => h) rfl
          (by simp [Thread.finish]) fun r' e hm => ?_
        simp [Thread.finish] at hm
        exact .inl hm
      | some ty =>
        refine h.keep i _ hsub (Nat.le_refl _) (fun _ _ => rfl) rfl (fun _ _ h => .inl h) (fun _ h => h) rfl ?_ fun _ _ h => .inl h
        intro r' ty' p' e
        simp only [Pc.added.injEq] at e
        obtain ⟨-, rfl, rfl⟩ := e
        exact ⟨hlt, by rw [hty, hrt], ⟨p, r.name⟩, by rw [hmem]; simp, rfl⟩
    case isTrue =>
      rw [hsp]
      exact h.keep i _ (fun _ h => h) (Nat.le_refl _) (fun _ _ => rfl) rfl (fun _ _ h => .inl h) (fun _ h => h) rfl (by simp) fun _ _ h => .inl h
  | refused r p =>
    exact h.keep i _ (fun _ h => h) (Nat.le_refl _) (fun _ _ => rfl) rfl (fun _ _ h => .inl h) (fun _ h => h) rfl (by simp) fun _ _ h => .inl h
  | deleted r =>
    dsimp only
    exact fin r _ fun e he => by
      revert he
      cases look k s.list r.name <;> simp [toOutcome]
  | added r ty p =>
    have ha := h.add i r ty p hpc
    refine h.keep i _ (fun _ h => h) (Nat.le_refl _) (fun _ _ => rfl) rfl (fun ty' p' e => ?_) (fun ty' e => ?_) rfl
      (by simp [Thread.finish]) fun r' e hm => ?_
    · by_cases hq : ty' = ty
      · subst hq
        simp only [upd_same, Option.some.injEq] at e
        subst e
        exact .inr ha
      · simp only [upd_ne _ _ hq] at e
        exact .inl e
    · by_cases hq : ty' = ty
      · subst hq; simp
      · simpa only [upd_ne _ _ hq] using e
    · simp [Thread.finish] at hm
      exact .inl hm

theorem MInv.init (valid : TypeId → Bool) (programs : Nat → List Req) : MInv (init valid programs) :=
  ⟨by simp [Race.init], by simp [Race.init], by simp [Race.init]⟩

theorem MInv.run {k : LookKind} {Ok} (hOk : ∀ r, Ok r → Exact k r.name) {s : State} (hi : RInv Ok s) (h : MInv s) (sched : List Nat) :
    MInv (run k s sched) := by
  induction sched generalizing s with
  | nil => exact h
  | cons i is ih => exact ih (hi.step hOk i) (h.step hi i)

end Rtti.Race
