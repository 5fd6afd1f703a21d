import Verif.Model.TypeRace
import Verif.Lemmas.Decay
/-! The invariant behind C67. -/
set_option autoImplicit false
namespace Rtti.TypeRace

/-- the static of `T` has no decayed type to initialise first -/
def Own (T : RType) : Prop := T = decayOf T ∨ Reg.isVoid (decayOf T) = true

instance (T : RType) : Decidable (Own T) := inferInstanceAs (Decidable (_ ∨ _))

theorem decayOf_decayOf (T : RType) : decayOf (decayOf T) = decayOf T := by
  unfold decayOf; rw [fullDecay_ref_free]

/-- `P`: the types that occur -/
structure RegOk (nm : RType → Str) (P : RType → Prop) (r : Reg) : Prop where
  alive : r.types ≠ .destroyed
  pos : 0 < r.next
  names : ∀ n k, r.names n = some k → 0 < k ∧ k < r.next ∧ ∃ i, r.info k = some i ∧ i.name = n
  holders : ∀ T id, r.holders T = some id → r.names (nm T) = some id
  content : (∀ S T, P S → P T → nm S = nm T → S = T) → ∀ T k, P T → r.names (nm T) = some k → ∃ d, r.info k = some ⟨nm T, describe T, d⟩ ∧
    (Own T → d = k) ∧ (¬ Own T → r.names (nm (decayOf T)) = some d)

/-- what later states keep -/
structure Grows (r r' : Reg) : Prop where
  names : ∀ n k, r.names n = some k → r'.names n = some k
  info : ∀ n k, r.names n = some k → r'.info k = r.info k
  holders : ∀ T, r.holders T ≠ none → r'.holders T ≠ none

theorem Grows.refl (r : Reg) : Grows r r := ⟨fun _ _ h => h, fun _ _ _ => rfl, fun _ h => h⟩

theorem Grows.trans {a b c : Reg} (h : Grows a b) (h' : Grows b c) : Grows a c :=
  ⟨fun n k e => h'.names n k (h.names n k e), fun n k e => (h'.info n k (h.names n k e)).trans (h.info n k e),
   fun T e => h'.holders T (h.holders T e)⟩

theorem RegOk.init (nm : RType → Str) (P : RType → Prop) : RegOk nm P Reg.init :=
  ⟨by simp [Reg.init], by simp [Reg.init], fun _ _ h => by simp [Reg.init] at h, fun _ _ h => by simp [Reg.init] at h,
   fun _ _ _ _ h => by simp [Reg.init] at h⟩

theorem customTypes_alive {r : Reg} (h : r.types ≠ .destroyed) :
    ∃ r', r.customTypes = some r' ∧ r'.types ≠ .destroyed ∧ r'.next = r.next ∧ r'.names = r.names ∧ r'.info = r.info ∧ r'.holders = r.holders := by
  unfold Reg.customTypes
  cases e : r.types with
  | notYet => exact ⟨_, rfl, by simp, rfl, rfl, rfl, rfl⟩
  | alive => exact ⟨_, rfl, by simp [e], rfl, rfl, rfl, rfl⟩
  | destroyed => exact absurd e h

/-- initialising a static registers the type, once -/
theorem initHolder_spec {nm : RType → Str} {P : RType → Prop} {r : Reg} (h : RegOk nm P r) (T : RType) (hT : P T) (hn : nm T ≠ []) (d : Nat)
    (hd : if Own T then d = 0 else r.names (nm (decayOf T)) = some d) :
    RegOk nm P (r.initHolder nm T d).1 ∧ Grows r (r.initHolder nm T d).1 ∧
    (r.initHolder nm T d).1.names (nm T) = some (r.initHolder nm T d).2 ∧
    (r.initHolder nm T d).1.holders T = some (r.initHolder nm T d).2 := by
  obtain ⟨r', e, a, b, c1, c2, c3⟩ := customTypes_alive h.alive
  unfold Reg.initHolder Reg.registerMetaType
  rw [e]
  simp only [Reg.addTypeInfo, if_neg hn]
  cases hx : r'.names (nm T) with
  | some k =>
    simp only
    rw [c1] at hx
    refine ⟨⟨a, by rw [b]; exact h.pos, ?_, ?_, ?_⟩, ⟨?_, ?_, ?_⟩, by simpa [c1] using hx, by simp [upd]⟩
    · intro n k' hk; simp only at hk ⊢; rw [c1] at hk; rw [b, c2]; exact h.names n k' hk
    · intro S id hS
      simp only [upd] at hS ⊢
      rw [c1]
      split at hS
      · rename_i hST; cases hS; rw [hST]; exact hx
      · rw [c3] at hS; exact h.holders S id hS
    · intro hi S k' hS hk
      simp only at hk ⊢
      rw [c1] at hk ⊢; rw [c2]
      exact h.content hi S k' hS hk
    · intro n k' hk; simp only; rw [c1]; exact hk
    · intro n k' hk; simp only; rw [c2]
    · intro S hS; simp only [upd]; split
      · simp
      · rw [c3]; exact hS
  | none =>
    simp only
    rw [c1] at hx
    have fresh : ∀ n k, r.names n = some k → k ≠ r.next := fun n k hk => Nat.ne_of_lt (h.names n k hk).2.1
    have ne : ∀ n k, r.names n = some k → n ≠ nm T := fun n k hk hn' => by rw [hn', hx] at hk; cases hk
    refine ⟨⟨a, Nat.succ_pos _, ?_, ?_, ?_⟩, ⟨?_, ?_, ?_⟩, by simp [upd], by simp [upd]⟩
    · intro n k hk
      simp only [upd, b, c1, c2] at hk ⊢
      split at hk
      · rename_i hnT
        cases hk
        exact ⟨h.pos, Nat.lt_succ_self _, _, if_pos rfl, hnT.symm⟩
      · obtain ⟨p, q, i, hi, hin⟩ := h.names n k hk
        exact ⟨p, Nat.lt_succ_of_lt q, i, by rw [if_neg (Nat.ne_of_lt q)]; exact hi, hin⟩
    · intro S id hS
      simp only [upd, b, c1, c3] at hS ⊢
      split at hS
      · rename_i hST; cases hS; rw [hST, if_pos rfl]
      · have := h.holders S id hS
        rw [if_neg (ne _ _ this)]; exact this
    · intro hi S k hS hk
      simp only [upd, b, c1, c2] at hk ⊢
      split at hk
      · rename_i hST
        have hST := hi _ _ hS hT hST
        subst hST
        cases hk
        rw [if_pos rfl]
        refine ⟨_, rfl, fun ho => ?_, fun ho => ?_⟩
        · rw [if_pos ho] at hd; simp [hd]
        · rw [if_neg ho] at hd
          have hd0 := (h.names _ _ hd).1
          rw [if_neg (ne _ _ hd), if_neg (Nat.pos_iff_ne_zero.1 hd0)]
          exact hd
      · obtain ⟨x, hx1, hx2, hx3⟩ := h.content hi S k hS hk
        refine ⟨x, by rw [if_neg (fresh _ _ hk)]; exact hx1, hx2, fun ho => ?_⟩
        rw [if_neg (ne _ _ (hx3 ho))]; exact hx3 ho
    · intro n k hk; simp only [upd, b, c1]; rw [if_neg (ne _ _ hk)]; exact hk
    · intro n k hk; simp only [upd, b, c2]; rw [if_neg (fresh _ _ hk)]
    · intro S hS; simp only [upd]; split
      · simp
      · rw [c3]; exact hS

/-- what is known of a thread that was asked for `T` -/
def PcOk (nm : RType → Str) (r : Reg) (T : RType) : Pc → Prop
  | .enter S => S = T
  | .enterD S => S = T ∧ Reg.isVoid T = false ∧ T ≠ decayOf T
  | .regD S => S = T ∧ Reg.isVoid T = false ∧ ¬ Own T
  | .reg S d => S = T ∧ Reg.isVoid T = false ∧ (if Own T then d = 0 else r.names (nm (decayOf T)) = some d)
  | .done id => (Reg.isVoid T = true ∧ id = 0) ∨ (Reg.isVoid T = false ∧ r.names (nm T) = some id)

theorem PcOk.mono {nm : RType → Str} {r r' : Reg} (g : Grows r r') {T : RType} {p : Pc} (h : PcOk nm r T p) : PcOk nm r' T p := by
  cases p with
  | enter S => exact h
  | enterD S => exact h
  | regD S => exact h
  | reg S d =>
    refine ⟨h.1, h.2.1, ?_⟩
    have := h.2.2
    split at this
    · rename_i ho; rw [if_pos ho]; exact this
    · rename_i ho; rw [if_neg ho]; exact g.names _ _ this
  | done id =>
    rcases h with h | h
    · exact .inl h
    · exact .inr ⟨h.1, g.names _ _ h.2⟩

structure Ok (nm : RType → Str) (ask : Nat → RType) (s : State) : Prop where
  reg : RegOk nm (Asked ask) s.reg
  busy : ∀ T u, s.busy T = some u ↔ Owns (s.pc u) T
  pc : ∀ t, PcOk nm s.reg (ask t) (s.pc t)

theorem Ok.start (nm : RType → Str) (ask : Nat → RType) : Ok nm ask (start ask) :=
  ⟨.init nm _, fun T u => by simp [TypeRace.start, Owns], fun t => rfl⟩

theorem own_decayOf (T : RType) : Own (decayOf T) := .inl (decayOf_decayOf T).symm

theorem Ok.step {nm : RType → Str} (hn : ∀ T, nm T ≠ []) {ask : Nat → RType} {s : State} (h : Ok nm ask s) (t : Nat) :
    Ok nm ask (step nm s t) ∧ Grows s.reg (step nm s t).reg := by
  -- a step that only moves the thread
  have move : ∀ p, (∀ T, Owns p T ↔ Owns (s.pc t) T) → PcOk nm s.reg (ask t) p → Ok nm ask { s with pc := upd s.pc t p } := by
    intro p ho hp
    refine ⟨h.reg, fun T u => ?_, fun u => ?_⟩
    · simp only [upd]
      split
      · rename_i e; subst e; rw [ho]; exact h.busy T u
      · exact h.busy T u
    · simp only [upd]
      split
      · rename_i e; subst e; exact hp
      · exact h.pc u
  -- a step that takes the free static of `S`
  have take : ∀ p S, s.busy S = none → (∀ T, Owns p T ↔ Owns (s.pc t) T ∨ S = T) → PcOk nm s.reg (ask t) p →
      Ok nm ask { s with busy := upd s.busy S (some t), pc := upd s.pc t p } := by
    intro p S hS ho hp
    refine ⟨h.reg, fun T u => ?_, fun u => ?_⟩
    · simp only [upd]
      by_cases hu : u = t
      · subst hu
        rw [if_pos rfl, ho]
        by_cases hT : T = S
        · simp [hT]
        · rw [if_neg hT, h.busy]
          exact ⟨.inl, fun h' => h'.resolve_right (fun e => hT e.symm)⟩
      · rw [if_neg hu]
        by_cases hT : T = S
        · subst hT
          rw [if_pos rfl]
          constructor
          · intro e; cases e; exact absurd rfl hu
          · intro e; rw [← h.busy, hS] at e; cases e
        · rw [if_neg hT]; exact h.busy T u
    · simp only [upd]
      split
      · rename_i e; subst e; exact hp
      · exact h.pc u
  -- a step that finishes the static of `S`
  have finish : ∀ p S r', RegOk nm (Asked ask) r' → Grows s.reg r' → Owns (s.pc t) S → (∀ T, Owns p T ↔ Owns (s.pc t) T ∧ S ≠ T) →
      PcOk nm r' (ask t) p → Ok nm ask { s with reg := r', busy := upd s.busy S none, pc := upd s.pc t p } := by
    intro p S r' hr hg hS ho hp
    refine ⟨hr, fun T u => ?_, fun u => ?_⟩
    · simp only [upd]
      by_cases hu : u = t
      · subst hu
        rw [if_pos rfl, ho]
        by_cases hT : T = S
        · simp [hT]
        · rw [if_neg hT, h.busy]
          exact ⟨fun h' => ⟨h', fun e => hT e.symm⟩, fun h' => h'.1⟩
      · rw [if_neg hu]
        by_cases hT : T = S
        · subst hT
          rw [if_pos rfl]
          constructor
          · intro e; cases e
          · intro e
            rw [← h.busy] at e hS
            rw [hS] at e; cases e; exact absurd rfl hu
        · rw [if_neg hT]; exact h.busy T u
    · simp only [upd]
      split
      · rename_i e; subst e; exact hp
      · exact (h.pc u).mono hg
  have hp := h.pc t
  unfold TypeRace.step
  cases e : s.pc t with
  | enter T =>
    rw [e] at hp move take
    simp only [Owns, PcOk] at hp move take
    subst hp
    dsimp only
    split
    · rename_i hv
      exact ⟨move _ (fun T => by simp) (.inl ⟨hv, rfl⟩), .refl _⟩
    · rename_i hv
      have hv : Reg.isVoid (ask t) = false := by simpa using hv
      cases hh : s.reg.holders (ask t) with
      | some id => exact ⟨move _ (fun T => by simp) (.inr ⟨hv, h.reg.holders _ _ hh⟩), .refl _⟩
      | none =>
        cases hb : s.busy (ask t) with
        | some u => exact ⟨h, .refl _⟩
        | none =>
          dsimp only
          split
          · rename_i hD
            exact ⟨take _ _ hb (fun T => by simp) ⟨rfl, hv, by rw [if_pos (.inl hD)]⟩, .refl _⟩
          · rename_i hD
            exact ⟨take _ _ hb (fun T => by simp) ⟨rfl, hv, hD⟩, .refl _⟩
  | enterD T =>
    rw [e] at hp move take
    simp only [Owns, PcOk] at hp move take
    obtain ⟨rfl, hv, hD⟩ := hp
    dsimp only
    split
    · rename_i hvD
      exact ⟨move _ (fun T => by simp) ⟨rfl, hv, by rw [if_pos (.inr hvD)]⟩, .refl _⟩
    · rename_i hvD
      have ho : ¬ Own (ask t) := by rintro (h | h); exact hD h; exact hvD h
      cases hh : s.reg.holders (decayOf (ask t)) with
      | some id => exact ⟨move _ (fun T => by simp) ⟨rfl, hv, by rw [if_neg ho]; exact h.reg.holders _ _ hh⟩, .refl _⟩
      | none =>
        cases hb : s.busy (decayOf (ask t)) with
        | some u => exact ⟨h, .refl _⟩
        | none => exact ⟨take _ _ hb (fun T => by simp) ⟨rfl, hv, ho⟩, .refl _⟩
  | regD T =>
    rw [e] at hp finish
    simp only [Owns, PcOk] at hp finish
    obtain ⟨rfl, hv, ho⟩ := hp
    obtain ⟨a, b, c, d⟩ := initHolder_spec h.reg (decayOf (ask t)) ⟨t, .inr rfl⟩ (hn _) 0 (by rw [if_pos (own_decayOf _)])
    dsimp only
    refine ⟨finish _ _ _ a b (.inr rfl) (fun T => ?_) ⟨rfl, hv, by rw [if_neg ho]; exact c⟩, b⟩
    simp only
    constructor
    · intro h'; exact ⟨.inl h', fun h'' => ho (.inl (h'.trans h''.symm))⟩
    · rintro ⟨h' | h', h''⟩
      · exact h'
      · exact absurd h' h''
  | reg T d =>
    rw [e] at hp finish
    simp only [Owns, PcOk] at hp finish
    obtain ⟨rfl, hv, hd⟩ := hp
    obtain ⟨a, b, c, _⟩ := initHolder_spec h.reg (ask t) ⟨t, .inl rfl⟩ (hn _) d hd
    dsimp only
    refine ⟨finish _ _ _ a b rfl (fun T => ?_) (.inr ⟨hv, c⟩), b⟩
    simp only [false_iff, not_and]
    exact fun h' h'' => h'' h'
  | done id => exact ⟨h, .refl _⟩

theorem Ok.run {nm : RType → Str} (hn : ∀ T, nm T ≠ []) {ask : Nat → RType} (ts : List Nat) {s : State} (h : Ok nm ask s) :
    Ok nm ask (run nm s ts) ∧ Grows s.reg (run nm s ts).reg := by
  induction ts generalizing s with
  | nil => exact ⟨h, .refl _⟩
  | cons t ts ih =>
    have h1 := h.step hn t
    have h2 := ih h1.1
    exact ⟨h2.1, h1.2.trans h2.2⟩

theorem run_append (nm : RType → Str) (s : State) (a b : List Nat) : run nm s (a ++ b) = run nm (run nm s a) b := by
  induction a generalizing s with
  | nil => rfl
  | cons t a ih => exact ih _

theorem step_other (nm : RType → Str) (s : State) {u v : Nat} (h : v ≠ u) : (step nm s u).pc v = s.pc v := by
  unfold TypeRace.step
  split
  · split
    · simp [upd, h]
    · split
      · simp [upd, h]
      · split
        · rfl
        · simp [upd, h]
  · split
    · simp [upd, h]
    · split
      · simp [upd, h]
      · split
        · rfl
        · simp [upd, h]
  · simp [upd, h]
  · simp [upd, h]
  · rfl

/-- the thread is past the point where it has to wait -/
inductive Through : Pc → Prop
  | regD (T : RType) : Through (.regD T)
  | reg (T : RType) (d : Nat) : Through (.reg T d)

/-- such a thread returns on its own, leaving what it initialised -/
theorem ok_through {nm : RType → Str} (hn : ∀ T, nm T ≠ []) {ask : Nat → RType} {s : State} (h : Ok nm ask s) {u : Nat}
    (hu : Through (s.pc u)) : ∃ ts, (∃ id, (run nm s ts).pc u = .done id) ∧ (∀ v, v ≠ u → (run nm s ts).pc v = s.pc v) ∧
      ∀ T, Owns (s.pc u) T → (run nm s ts).reg.holders T ≠ none := by
  have fin : ∀ s : State, Ok nm ask s → ∀ T d, s.pc u = .reg T d →
      (∃ id, (step nm s u).pc u = .done id) ∧ (step nm s u).reg.holders T ≠ none := by
    intro s h T d e
    have hp := h.pc u
    rw [e] at hp
    obtain ⟨rfl, _, hd⟩ := hp
    obtain ⟨_, _, _, c⟩ := initHolder_spec h.reg (ask u) ⟨u, .inl rfl⟩ (hn _) d hd
    unfold TypeRace.step
    rw [e]
    exact ⟨⟨_, if_pos rfl⟩, by dsimp only; rw [c]; simp⟩
  cases e : s.pc u with
  | enter T => rw [e] at hu; cases hu
  | enterD T => rw [e] at hu; cases hu
  | done id => rw [e] at hu; cases hu
  | reg T d =>
    have := fin s h T d e
    exact ⟨[u], this.1, fun v hv => step_other nm s hv, fun S hS => by cases hS; exact this.2⟩
  | regD T =>
    have hp := h.pc u
    rw [e] at hp
    obtain ⟨rfl, _, ho⟩ := hp
    obtain ⟨_, _, _, c⟩ := initHolder_spec h.reg (decayOf (ask u)) ⟨u, .inr rfl⟩ (hn _) 0 (by rw [if_pos (own_decayOf _)])
    have h1 := (h.step hn u).1
    have e1 : (step nm s u).pc u = .reg (ask u) (s.reg.initHolder nm (decayOf (ask u)) 0).2 := by
      unfold TypeRace.step; rw [e]; exact if_pos rfl
    have c1 : (step nm s u).reg.holders (decayOf (ask u)) ≠ none := by
      unfold TypeRace.step; rw [e]; dsimp only; rw [c]; simp
    have := fin _ h1 _ _ e1
    refine ⟨[u, u], this.1, fun v hv => ?_, fun S hS => ?_⟩
    · exact (step_other nm _ hv).trans (step_other nm s hv)
    · rcases hS with rfl | rfl
      · exact this.2
      · exact (h1.step hn u).2.holders _ c1

/-- a thread in a constructor returns, if the others are let run -/
theorem ok_inside {nm : RType → Str} (hn : ∀ T, nm T ≠ []) {ask : Nat → RType} {s : State} (h : Ok nm ask s) {u : Nat} {T : RType}
    (hu : Owns (s.pc u) T) : ∃ ts, (∃ id, (run nm s ts).pc u = .done id) ∧ (run nm s ts).reg.holders T ≠ none ∧
      ∀ v S, s.pc v = .enter S → (run nm s ts).pc v = .enter S := by
  by_cases ht : Through (s.pc u)
  · obtain ⟨ts, a, b, c⟩ := ok_through hn h ht
    refine ⟨ts, a, c T hu, fun v S hv => ?_⟩
    rw [b v (fun e => by rw [e] at hv; rw [hv] at hu; exact hu)]; exact hv
  · -- at the static of the decayed type
    have go : ∀ s : State, Ok nm ask s → s.pc u = .enterD T → (Reg.isVoid (decayOf T) = true ∨ s.reg.holders (decayOf T) ≠ none ∨ s.busy (decayOf T) = none) →
        ∃ ts, (∃ id, (run nm s ts).pc u = .done id) ∧ (run nm s ts).reg.holders T ≠ none ∧
          ∀ v S, s.pc v = .enter S → (run nm s ts).pc v = .enter S := by
      intro s h e hfree
      have h1 := (h.step hn u).1
      have ht1 : Through ((step nm s u).pc u) ∧ Owns ((step nm s u).pc u) T := by
        unfold TypeRace.step
        rw [e]
        dsimp only
        split
        · simp only [upd, if_true]; exact ⟨.reg _ _, rfl⟩
        · rename_i hv
          split
          · simp only [upd, if_true]; exact ⟨.reg _ _, rfl⟩
          · rename_i hh
            split
            · rename_i w hb
              rcases hfree with h' | h' | h'
              · exact absurd h' hv
              · exact absurd hh h'
              · rw [h'] at hb; cases hb
            · simp only [upd, if_true]; exact ⟨.regD _, .inl rfl⟩
      obtain ⟨ts, a, b, c⟩ := ok_through hn h1 ht1.1
      refine ⟨u :: ts, a, c T ht1.2, fun v S hv => ?_⟩
      have hvu : v ≠ u := fun e' => by rw [e', e] at hv; cases hv
      exact (b v hvu).trans ((step_other nm s hvu).trans hv)
    have e : s.pc u = .enterD T := by
      cases e : s.pc u with
      | enter S => rw [e] at hu; cases hu
      | enterD S => rw [e] at hu; cases hu; rfl
      | done id => rw [e] at hu; cases hu
      | reg S d => rw [e] at ht; exact absurd (.reg _ _) ht
      | regD S => rw [e] at ht; exact absurd (.regD _) ht
    by_cases hf : Reg.isVoid (decayOf T) = true ∨ s.reg.holders (decayOf T) ≠ none ∨ s.busy (decayOf T) = none
    · exact go s h e hf
    · simp only [not_or] at hf
      obtain ⟨hv, hh, hb⟩ := hf
      obtain ⟨w, hw⟩ := Option.ne_none_iff_exists'.1 hb
      have hw := (h.busy _ _).1 hw
      have hwt : Through (s.pc w) := by
        have hp := h.pc w
        cases ew : s.pc w with
        | enter S => rw [ew] at hw; cases hw
        | enterD S =>
          rw [ew] at hw hp
          cases hw
          obtain ⟨h1, _, h3⟩ := hp
          exact absurd (h1.symm.trans ((decayOf_decayOf T).symm.trans (congrArg decayOf h1))) h3
        | done id => rw [ew] at hw; cases hw
        | reg S d => exact .reg _ _
        | regD S => exact .regD _
      have huw : u ≠ w := fun e' => by rw [← e', e] at hwt; cases hwt
      obtain ⟨ts, _, b, c⟩ := ok_through hn h hwt
      have h1 := (h.run hn ts).1
      obtain ⟨ts', a', b', c'⟩ := go _ h1 ((b u huw).trans e) (.inr (.inl (c _ hw)))
      refine ⟨ts ++ ts', ?_, ?_, fun v S hv => ?_⟩
      · rw [run_append]; exact a'
      · rw [run_append]; exact b'
      · rw [run_append]
        refine c' v S ((b v fun e' => ?_).trans hv)
        rw [e'] at hv; rw [hv] at hwt; cases hwt

theorem ok_returns {nm : RType → Str} (hn : ∀ T, nm T ≠ []) {ask : Nat → RType} {s : State} (h : Ok nm ask s) (t : Nat) :
    ∃ ts id, (run nm s ts).pc t = .done id := by
  cases e : s.pc t with
  | done id => exact ⟨[], id, e⟩
  | enterD T => obtain ⟨ts, ⟨id, hid⟩, _⟩ := ok_inside hn h (u := t) (T := T) (by rw [e]; rfl); exact ⟨ts, id, hid⟩
  | regD T => obtain ⟨ts, ⟨id, hid⟩, _⟩ := ok_inside hn h (u := t) (T := T) (by rw [e]; exact .inl rfl); exact ⟨ts, id, hid⟩
  | reg T d => obtain ⟨ts, ⟨id, hid⟩, _⟩ := ok_inside hn h (u := t) (T := T) (by rw [e]; rfl); exact ⟨ts, id, hid⟩
  | enter T =>
    have last : ∀ s : State, s.pc t = .enter T → (Reg.isVoid T = true ∨ s.reg.holders T ≠ none) → ∃ id, (step nm s t).pc t = .done id := by
      intro s e hf
      unfold TypeRace.step
      rw [e]
      dsimp only
      split
      · exact ⟨_, if_pos rfl⟩
      · rename_i hv
        cases hh : s.reg.holders T with
        | some id => exact ⟨_, if_pos rfl⟩
        | none => exact absurd hh (hf.resolve_left hv)
    by_cases hf : Reg.isVoid T = true ∨ s.reg.holders T ≠ none
    · obtain ⟨id, hid⟩ := last s e hf; exact ⟨[t], id, hid⟩
    · cases hb : s.busy T with
      | some u =>
        obtain ⟨ts, _, a, b⟩ := ok_inside hn h ((h.busy T u).1 hb)
        obtain ⟨id, hid⟩ := last _ (b t T e) (.inr a)
        exact ⟨ts ++ [t], id, by rw [run_append]; exact hid⟩
      | none =>
        simp only [not_or, ne_eq, Classical.not_not] at hf
        have h1 := (h.step hn t).1
        have ho : Owns ((step nm s t).pc t) T := by
          unfold TypeRace.step
          rw [e]
          dsimp only
          rw [if_neg hf.1, hf.2, hb]
          simp only [upd, if_true]
          split <;> rfl
        obtain ⟨ts, ⟨id, hid⟩, _⟩ := ok_inside hn h1 ho
        exact ⟨t :: ts, id, hid⟩

end Rtti.TypeRace
