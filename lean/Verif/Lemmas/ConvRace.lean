import Verif.Spec.ConvRace
/-! Lemmas for C72: an invariant of `ConvRace.step`. -/
set_option autoImplicit false
namespace Rtti.ConvRace
open Rtti Spec

/-- effect of a call on the table of functions -/
def apply (m : Nat → Option Nat) (e : Ev) : Nat → Option Nat :=
  match e.req, e.ans with
  | .register k _ _, .flag true => fun k' => if k' = k then e.used else m k'
  | .unregister k, _ => fun k' => if k' = k then none else m k'
  | _, _ => m

def after (m : Nat → Option Nat) (es : List Ev) : Nat → Option Nat := es.foldl apply m

theorem after_append (m : Nat → Option Nat) (es es' : List Ev) : after m (es ++ es') = after (after m es) es' :=
  List.foldl_append

theorem Seq.append {m : Nat → Option Nat} {es es' : List Ev} (h : Seq m es) (h' : Seq (after m es) es') : Seq m (es ++ es') := by
  induction h with
  | nil m => exact h'
  | registered h1 _ ih => exact .registered h1 (ih h')
  | refused h1 _ ih => exact .refused h1 (ih h')
  | unregistered _ ih => exact .unregistered (ih h')
  | has _ ih => exact .has (ih h')
  | converted _ ih => exact .converted (ih h')

def PcOk (s : State) (i : Nat) : Pc → Prop
  | .idle => True
  | .guard _ _ _ => True
  | .make k f _ => s.static k f = .busy i
  | .add k f _ => ∃ w, s.static k f = .made w
  | .lock r => ∀ k f v, r ≠ .register k f v
  | .invoke _ none => True
  | .invoke k (some f) => ∃ w, s.static k f = .made w

/-- the call being made -/
def current : Pc → List Req
  | .idle => []
  | .guard k f v => [.register k f v]
  | .make k f v => [.register k f v]
  | .add k f v => [.register k f v]
  | .lock r => [r]
  | .invoke k _ => [.convert k]

/-- the call whose critical section is over -/
def pending (s : State) : Pc → List (Req × Ans)
  | .invoke k f => [(.convert k, .ran (f.bind (s.value k)))]
  | _ => []

def mine (i : Nat) (es : List Ev) : List (Req × Ans) := (es.filter (·.thread == i)).map fun e => (e.req, e.ans)

structure Ok (programs : Nat → List Req) (s : State) : Prop where
  seq : Seq (fun _ => none) s.log
  tab : ∀ k, after (fun _ => none) s.log k = (s.table k).bind (s.value k)
  made : ∀ k f, s.table k = some f → ∃ v, s.static k f = .made v
  pc : ∀ i, PcOk s i (s.threads i).pc
  busy : ∀ k f i, s.static k f = .busy i → ∃ v, (s.threads i).pc = .make k f v
  res : ∀ i, mine i s.log = (s.threads i).results ++ pending s (s.threads i).pc
  prog : ∀ i, programs i = (s.threads i).results.map (·.1) ++ current (s.threads i).pc ++ (s.threads i).todo
  used : ∀ e ∈ s.log, ∀ k f v, e.req = .register k f v → (∃ w, e.used = some w ∧ s.static k f = .made w)
  src : ∀ k f v, s.static k f = .made v → ∃ i, Req.register k f v ∈ programs i

theorem Ok.init (programs : Nat → List Req) : Ok programs (init programs) := by
  constructor <;> simp [ConvRace.init, after, mine, PcOk, pending, current]
  exact .nil _

/-- the statics that are made stay as they are -/
def Keeps (s s' : State) : Prop := ∀ k f v, s.static k f = .made v → s'.static k f = .made v

theorem value_made {s : State} {k f v : Nat} (h : s.static k f = .made v) : s.value k f = some v := by simp [State.value, h]

theorem Ok.bind_keep {programs : Nat → List Req} {s s' : State} (_ : Ok programs s) (hk : Keeps s s') {k : Nat} {o : Option Nat}
    (ho : ∀ f, o = some f → ∃ v, s.static k f = .made v) : o.bind (s'.value k) = o.bind (s.value k) := by
  cases o with
  | none => rfl
  | some f =>
    obtain ⟨v, e⟩ := ho f rfl
    simp [value_made e, value_made (hk _ _ _ e)]

/-- other threads: nothing to show but that the statics kept what they had -/
theorem Ok.other {programs : Nat → List Req} {s s' : State} (h : Ok programs s) (hk : Keeps s s') {j : Nat}
    (hb : ∀ k f, s.static k f = .busy j → s'.static k f = .busy j) (ht : s'.threads j = s.threads j)
    (hl : mine j s'.log = mine j s.log) :
    PcOk s' j (s'.threads j).pc ∧ mine j s'.log = (s'.threads j).results ++ pending s' (s'.threads j).pc ∧
    programs j = (s'.threads j).results.map (·.1) ++ current (s'.threads j).pc ++ (s'.threads j).todo := by
  have hp := h.pc j
  refine ⟨?_, ?_, by rw [ht]; exact h.prog j⟩
  · rw [ht]
    revert hp
    cases (s.threads j).pc with
    | idle => exact fun _ => trivial
    | guard k f v => exact fun _ => trivial
    | make k f v => exact fun e => hb _ _ e
    | add k f v => rintro ⟨w, e⟩; exact ⟨w, hk _ _ _ e⟩
    | lock r => exact id
    | invoke k f =>
      cases f with
      | none => exact fun _ => trivial
      | some f => rintro ⟨w, e⟩; exact ⟨w, hk _ _ _ e⟩
  · rw [ht, hl, h.res j]
    revert hp
    cases e : (s.threads j).pc with
    | invoke k f =>
      intro hp
      simp only [pending]
      rw [h.bind_keep hk]
      intro f' e'; subst e'; exact hp
    | _ => exact fun _ => rfl

/-- a step: what changed, put together -/
theorem Ok.next {programs : Nat → List Req} {s s' : State} {i : Nat} (h : Ok programs s) (hk : Keeps s s') (es : List Ev)
    (hl : s'.log = s.log ++ es) (hes : ∀ e ∈ es, e.thread = i)
    (hb : ∀ k f j, j ≠ i → (s.static k f = .busy j ↔ s'.static k f = .busy j))
    (ht : ∀ j, j ≠ i → s'.threads j = s.threads j)
    (hseq : Seq (fun k => (s.table k).bind (s.value k)) es)
    (htab : ∀ k, after (fun k => (s.table k).bind (s.value k)) es k = (s'.table k).bind (s'.value k))
    (hmade : ∀ k f, s'.table k = some f → ∃ v, s'.static k f = .made v)
    (hpc : PcOk s' i (s'.threads i).pc)
    (hbi : ∀ k f, s'.static k f = .busy i → ∃ v, (s'.threads i).pc = .make k f v)
    (hres : (s.threads i).results ++ pending s (s.threads i).pc ++ es.map (fun e => (e.req, e.ans)) =
      (s'.threads i).results ++ pending s' (s'.threads i).pc)
    (hprog : (s.threads i).results.map (·.1) ++ current (s.threads i).pc ++ (s.threads i).todo =
      (s'.threads i).results.map (·.1) ++ current (s'.threads i).pc ++ (s'.threads i).todo)
    (hused : ∀ e ∈ es, ∀ k f v, e.req = .register k f v → (∃ w, e.used = some w ∧ s'.static k f = .made w))
    (hsrc : ∀ k f v, s'.static k f = .made v → s.static k f ≠ .made v → Req.register k f v ∈ current (s.threads i).pc) :
    Ok programs s' := by
  have hfun : after (fun _ => none) s.log = fun k => (s.table k).bind (s.value k) := funext h.tab
  have hmine : ∀ j, mine j s'.log = mine j s.log ++ (if j = i then es.map (fun e => (e.req, e.ans)) else []) := by
    intro j
    simp only [mine, hl, List.filter_append, List.map_append]
    congr 1
    split
    · rename_i e; subst e
      rw [List.filter_eq_self.2]
      intro e he; simp [hes e he]
    · rename_i ne
      rw [List.filter_eq_nil_iff.2]
      · rfl
      intro e he; simp [hes e he, Ne.symm ne]
  have key : ∀ j, PcOk s' j (s'.threads j).pc ∧ mine j s'.log = (s'.threads j).results ++ pending s' (s'.threads j).pc ∧
      programs j = (s'.threads j).results.map (·.1) ++ current (s'.threads j).pc ++ (s'.threads j).todo := by
    intro j
    by_cases e : j = i
    · subst e
      refine ⟨hpc, ?_, ?_⟩
      · rw [hmine, if_pos rfl, h.res, hres]
      · rw [h.prog, hprog]
    · exact h.other hk (fun k f => (hb k f j e).1) (ht j e) (by rw [hmine, if_neg e, List.append_nil])
  constructor
  · rw [hl]; exact Seq.append h.seq (by rw [hfun]; exact hseq)
  · intro k; rw [hl, after_append, hfun]; exact htab k
  · exact hmade
  · exact fun j => (key j).1
  · intro k f j e
    by_cases hj : j = i
    · subst hj; exact hbi k f e
    · rw [ht j hj]; exact h.busy k f j ((hb k f j hj).2 e)
  · exact fun j => (key j).2.1
  · exact fun j => (key j).2.2
  · intro e he
    rw [hl, List.mem_append] at he
    rcases he with he | he
    · intro k f v er
      obtain ⟨w, e1, e2⟩ := h.used e he k f v er
      exact ⟨w, e1, hk _ _ _ e2⟩
    · exact hused e he
  · intro k f v e
    by_cases h0 : s.static k f = .made v
    · exact h.src k f v h0
    · refine ⟨i, ?_⟩
      rw [h.prog]
      simp [hsrc k f v e h0]

theorem upd2_same {A : Type} (g : Nat → Nat → A) (k f : Nat) (a : A) : upd g k (upd (g k) f a) k f = a := by simp [upd]

theorem upd2_ne {A : Type} (g : Nat → Nat → A) {k f k' f' : Nat} (a : A) (h : ¬(k' = k ∧ f' = f)) :
    upd g k (upd (g k) f a) k' f' = g k' f' := by
  by_cases e : k' = k
  · subst e
    have : f' ≠ f := fun e => h ⟨rfl, e⟩
    simp [upd, this]
  · simp [upd, e]

theorem Ok.step {programs : Nat → List Req} {s s' : State} {i : Nat} (h : Ok programs s) (hs : step s i = some s') :
    Ok programs s' := by
  have hp := h.pc i
  cases epc : (s.threads i).pc with
  | idle =>
    simp only [ConvRace.step, epc] at hs
    split at hs
    · cases hs
    · rename_i r rest et
      cases hs
      refine h.next (i := i) (fun k f v e => e) [] (by simp) (by simp) (fun _ _ _ _ => Iff.rfl) (fun j hj => by simp [upd, hj]) (.nil _)
        (fun _ => rfl) h.made ?_ ?_ ?_ ?_ (by simp) (fun _ _ _ e e' => absurd e e')
      · cases r <;> simp [PcOk, upd]
      · intro k f e
        obtain ⟨v, e'⟩ := h.busy k f i e
        rw [epc] at e'; cases e'
      · cases r <;> simp [epc, pending, upd]
      · cases r <;> simp [epc, current, upd, et]
  | guard k f v =>
    simp only [ConvRace.step, epc] at hs
    split at hs
    · rename_i ef
      cases hs
      have ne : ∀ {k' f' : Nat} {x : Static}, s.static k' f' = x → x ≠ .fresh → ¬(k' = k ∧ f' = f) := by
        rintro k' f' x e hx ⟨rfl, rfl⟩; rw [ef] at e; exact hx e.symm
      have keep : Keeps s { s.put i (.make k f v) with static := upd s.static k (upd (s.static k) f (.busy i)) } :=
        fun k' f' w e => (upd2_ne _ _ (ne e (by simp))).trans e
      refine h.next (i := i) keep [] (by simp [State.put]) (by simp) ?_ (fun j hj => by simp [State.put, upd, hj]) (.nil _) ?_ ?_ ?_ ?_ ?_ ?_ (by simp) ?_
      · intro k' f' j hj
        constructor
        · intro e; exact (upd2_ne _ _ (ne e (by simp))).trans e
        · intro e
          by_cases c : k' = k ∧ f' = f
          · obtain ⟨rfl, rfl⟩ := c
            dsimp only at e; rw [upd2_same] at e; cases e; exact absurd rfl hj
          · dsimp only at e; rwa [upd2_ne _ _ c] at e
      · intro k'; exact (h.bind_keep keep (h.made k')).symm
      · intro k' f' e
        obtain ⟨w, e'⟩ := h.made k' f' e
        exact ⟨w, keep _ _ _ e'⟩
      · simp [State.put, upd, PcOk]
      · intro k' f' e
        by_cases c : k' = k ∧ f' = f
        · obtain ⟨rfl, rfl⟩ := c
          exact ⟨v, by simp [State.put, upd]⟩
        · dsimp only at e; rw [upd2_ne _ _ c] at e
          obtain ⟨v', e'⟩ := h.busy k' f' i e
          rw [epc] at e'; cases e'
      · simp [epc, pending, State.put, upd]
      · simp [epc, current, State.put, upd]
      · intro k' f' w e e'
        by_cases c : k' = k ∧ f' = f
        · obtain ⟨rfl, rfl⟩ := c
          dsimp only at e; rw [upd2_same] at e; cases e
        · dsimp only at e; rw [upd2_ne _ _ c] at e; exact absurd e e'
    · cases hs
    · rename_i w ew
      cases hs
      refine h.next (i := i) (fun k f v e => e) [] (by simp [State.put]) (by simp) (fun _ _ _ _ => Iff.rfl)
        (fun j hj => by simp [State.put, upd, hj]) (.nil _) (fun _ => rfl) h.made ?_ ?_ ?_ ?_ (by simp) (fun _ _ _ e e' => absurd e e')
      · simp only [State.put, upd, if_pos, PcOk]; exact ⟨w, ew⟩
      · intro k' f' e
        obtain ⟨v', e'⟩ := h.busy k' f' i e
        rw [epc] at e'; cases e'
      · simp [epc, pending, State.put, upd]
      · simp [epc, current, State.put, upd]
  | make k f v =>
    simp only [ConvRace.step, epc] at hs
    cases hs
    rw [epc] at hp
    simp only [PcOk] at hp
    have ne : ∀ {k' f' : Nat} {x : Static}, s.static k' f' = x → x ≠ .busy i → ¬(k' = k ∧ f' = f) := by
      rintro k' f' x e hx ⟨rfl, rfl⟩; rw [hp] at e; exact hx e.symm
    have keep : Keeps s { s.put i (.add k f v) with static := upd s.static k (upd (s.static k) f (.made v)) } :=
      fun k' f' w e => (upd2_ne _ _ (ne e (by simp))).trans e
    refine h.next (i := i) keep [] (by simp [State.put]) (by simp) ?_ (fun j hj => by simp [State.put, upd, hj]) (.nil _) ?_ ?_ ?_ ?_ ?_ ?_ (by simp) ?_
    · intro k' f' j hj
      constructor
      · intro e; exact (upd2_ne _ _ (ne e (by simp [hj]))).trans e
      · intro e
        by_cases c : k' = k ∧ f' = f
        · obtain ⟨rfl, rfl⟩ := c
          dsimp only at e; rw [upd2_same] at e; cases e
        · dsimp only at e; rwa [upd2_ne _ _ c] at e
    · intro k'; exact (h.bind_keep keep (h.made k')).symm
    · intro k' f' e
      obtain ⟨w, e'⟩ := h.made k' f' e
      exact ⟨w, keep _ _ _ e'⟩
    · simp [State.put, upd, PcOk]
    · intro k' f' e
      by_cases c : k' = k ∧ f' = f
      · obtain ⟨rfl, rfl⟩ := c
        dsimp only at e; rw [upd2_same] at e; cases e
      · dsimp only at e; rw [upd2_ne _ _ c] at e
        obtain ⟨v', e'⟩ := h.busy k' f' i e
        rw [epc] at e'; cases e'; exact absurd ⟨rfl, rfl⟩ c
    · simp [epc, pending, State.put, upd]
    · simp [epc, current, State.put, upd]
    · intro k' f' w e e'
      by_cases c : k' = k ∧ f' = f
      · obtain ⟨rfl, rfl⟩ := c
        dsimp only at e; rw [upd2_same] at e; cases e; simp [epc, current]
      · dsimp only at e; rw [upd2_ne _ _ c] at e; exact absurd e e'
  | add k f v =>
    simp only [ConvRace.step, epc] at hs
    rw [epc] at hp
    obtain ⟨w, ew⟩ := hp
    have hbusy : ∀ {k' f' : Nat}, s.static k' f' ≠ .busy i := by
      intro k' f' e
      obtain ⟨v', e'⟩ := h.busy k' f' i e
      rw [epc] at e'; cases e'
    split at hs
    · rename_i f' ef
      cases hs
      rw [value_made ew]
      refine h.next (i := i) (fun k f v e => e) [⟨i, .register k f v, .flag false, some w⟩] rfl (by simp) (fun _ _ _ _ => Iff.rfl)
        (fun j hj => by simp [State.ret, upd, hj]) ?_ (fun _ => rfl) h.made (by simp [State.ret, upd, PcOk]) (fun _ _ e => absurd e hbusy) ?_ ?_
        ?_ (fun _ _ _ e e' => absurd e e')
      · obtain ⟨w', e'⟩ := h.made _ _ ef
        exact .refused (by simp [ef, value_made e']) (.nil _)
      · simp [epc, pending, State.ret, upd]
      · simp [epc, current, State.ret, upd]
      · intro e he k' f' v' er
        simp only [List.mem_singleton] at he
        subst he; cases er
        exact ⟨w, rfl, ew⟩
    · rename_i ef
      cases hs
      rw [value_made ew]
      refine h.next (i := i) (fun k f v e => e) [⟨i, .register k f v, .flag true, some w⟩] rfl (by simp) (fun _ _ _ _ => Iff.rfl)
        (fun j hj => by simp [State.ret, upd, hj]) ?_ ?_ ?_ (by simp [State.ret, upd, PcOk]) (fun _ _ e => absurd e hbusy) ?_ ?_
        ?_ (fun _ _ _ e e' => absurd e e')
      · exact .registered (by simp [ef]) (.nil _)
      · intro k'
        simp only [after, apply, List.foldl_cons, List.foldl_nil, upd]
        by_cases c : k' = k
        · subst c; simp only [if_pos, Option.bind_some]; exact (value_made (s := s) ew).symm
        · simp only [c, if_false]; rfl
      · intro k' f' e
        simp only [upd] at e
        split at e
        · rename_i c; subst c; cases e; exact ⟨w, ew⟩
        · exact h.made _ _ e
      · simp [epc, pending, State.ret, upd]
      · simp [epc, current, State.ret, upd]
      · intro e he k' f' v' er
        simp only [List.mem_singleton] at he
        subst he; cases er
        exact ⟨w, rfl, ew⟩
  | lock r =>
    have hbusy : ∀ {k' f' : Nat}, s.static k' f' ≠ .busy i := by
      intro k' f' e
      obtain ⟨v', e'⟩ := h.busy k' f' i e
      rw [epc] at e'; cases e'
    cases r with
    | register k f v => simp only [ConvRace.step, epc] at hs; cases hs
    | unregister k =>
      simp only [ConvRace.step, epc] at hs
      cases hs
      refine h.next (i := i) (fun k f v e => e) [⟨i, .unregister k, .none, none⟩] rfl (by simp) (fun _ _ _ _ => Iff.rfl)
        (fun j hj => by simp [State.ret, upd, hj]) (.unregistered (.nil _)) ?_ ?_ (by simp [State.ret, upd, PcOk])
        (fun _ _ e => absurd e hbusy) ?_ ?_ (by simp) (fun _ _ _ e e' => absurd e e')
      · intro k'
        simp only [after, apply, List.foldl_cons, List.foldl_nil, upd]
        by_cases c : k' = k
        · simp [c]
        · simp only [c, if_false]; rfl
      · intro k' f' e
        simp only [upd] at e
        split at e
        · cases e
        · exact h.made _ _ e
      · simp [epc, pending, State.ret, upd]
      · simp [epc, current, State.ret, upd]
    | has k =>
      simp only [ConvRace.step, epc] at hs
      cases hs
      have hh : (s.table k).isSome = ((s.table k).bind (s.value k)).isSome := by
        cases et : s.table k with
        | none => rfl
        | some f =>
          obtain ⟨w, e⟩ := h.made _ _ et
          simp [value_made e]
      refine h.next (i := i) (fun k f v e => e) [⟨i, .has k, .flag (s.table k).isSome, none⟩] rfl (by simp) (fun _ _ _ _ => Iff.rfl)
        (fun j hj => by simp [State.ret, upd, hj]) ?_ (fun _ => rfl) h.made (by simp [State.ret, upd, PcOk])
        (fun _ _ e => absurd e hbusy) ?_ ?_ (by simp) (fun _ _ _ e e' => absurd e e')
      · rw [hh]; exact .has (m := fun k => (s.table k).bind (s.value k)) (.nil _)
      · simp [epc, pending, State.ret, upd]
      · simp [epc, current, State.ret, upd]
    | convert k =>
      simp only [ConvRace.step, epc] at hs
      cases hs
      refine h.next (i := i) (fun k f v e => e) [⟨i, .convert k, .ran ((s.table k).bind (s.value k)), (s.table k).bind (s.value k)⟩] rfl (by simp)
        (fun _ _ _ _ => Iff.rfl) (fun j hj => by simp [State.put, upd, hj])
        (.converted (m := fun k => (s.table k).bind (s.value k)) (.nil _)) (fun _ => rfl) h.made ?_
        (fun _ _ e => absurd e hbusy) ?_ ?_ (by simp) (fun _ _ _ e e' => absurd e e')
      · simp only [State.put, upd, if_pos]
        cases et : s.table k with
        | none => trivial
        | some f => exact h.made _ _ et
      · simp [epc, pending, State.put, upd]; rfl
      · simp [epc, current, State.put, upd]
  | invoke k f =>
    have hbusy : ∀ {k' f' : Nat}, s.static k' f' ≠ .busy i := by
      intro k' f' e
      obtain ⟨v', e'⟩ := h.busy k' f' i e
      rw [epc] at e'; cases e'
    have fin : ∀ a, f.bind (s.value k) = a → s' = s.ret i (.convert k) (.ran a) → Ok programs s' := by
      rintro a ea rfl
      refine h.next (i := i) (fun k f v e => e) [] (by simp [State.ret]) (by simp) (fun _ _ _ _ => Iff.rfl)
        (fun j hj => by simp [State.ret, upd, hj]) (.nil _) (fun _ => rfl) h.made (by simp [State.ret, upd, PcOk])
        (fun _ _ e => absurd e hbusy) ?_ ?_ (by simp) (fun _ _ _ e e' => absurd e e')
      · simp [epc, pending, State.ret, upd, ea]
      · simp [epc, current, State.ret, upd]
    cases f with
    | none =>
      simp only [ConvRace.step, epc] at hs
      cases hs
      exact fin _ rfl rfl
    | some f =>
      rw [epc] at hp
      obtain ⟨w, ew⟩ := hp
      simp only [ConvRace.step, epc, ew] at hs
      cases hs
      exact fin _ (by simp [value_made ew]) rfl

theorem Ok.run {programs : Nat → List Req} {s : State} (h : Ok programs s) (is : List Nat) : Ok programs (run s is) := by
  induction is generalizing s with
  | nil => exact h
  | cons i is ih =>
    apply ih
    cases e : ConvRace.step s i with
    | none => exact h
    | some s' => exact h.step e

theorem Ok.asked {programs : Nat → List Req} {s : State} (h : Ok programs s) {e : Ev} (he : e ∈ s.log) : e.req ∈ programs e.thread := by
  have : (e.req, e.ans) ∈ mine e.thread s.log := List.mem_map.2 ⟨e, List.mem_filter.2 ⟨he, by simp⟩, rfl⟩
  rw [h.res, List.mem_append] at this
  rw [h.prog]
  rcases this with h | h
  · have : e.req ∈ (s.threads e.thread).results.map (·.1) := List.mem_map.2 ⟨_, h, rfl⟩
    simp [this]
  · have : e.req ∈ current (s.threads e.thread).pc := by
      revert h
      cases (s.threads e.thread).pc <;> simp [pending, current]
      exact fun h _ => h
    simp [this]

theorem run_append (s : State) (is is' : List Nat) : ConvRace.run s (is ++ is') = ConvRace.run (ConvRace.run s is) is' := by
  induction is generalizing s with
  | nil => rfl
  | cons i is ih => exact ih _

/-- who can not move waits for a thread that can, or has nothing to do -/
theorem Ok.progress {programs : Nat → List Req} {s : State} (h : Ok programs s) {i : Nat}
    (hi : (s.threads i).pc ≠ .idle ∨ (s.threads i).todo ≠ []) : ∃ j s', ConvRace.step s j = some s' := by
  have hp := h.pc i
  cases epc : (s.threads i).pc with
  | idle =>
    cases et : (s.threads i).todo with
    | nil => rw [epc, et] at hi; simp at hi
    | cons r rest => exact ⟨i, _, by simp only [ConvRace.step, epc, et]; rfl⟩
  | guard k f v =>
    cases es : s.static k f with
    | fresh => exact ⟨i, _, by simp only [ConvRace.step, epc, es]; rfl⟩
    | made w => exact ⟨i, _, by simp only [ConvRace.step, epc, es]; rfl⟩
    | busy j =>
      obtain ⟨v', ej⟩ := h.busy k f j es
      exact ⟨j, _, by simp only [ConvRace.step, ej]; rfl⟩
  | make k f v => exact ⟨i, _, by simp only [ConvRace.step, epc]; rfl⟩
  | add k f v =>
    cases et : s.table k with
    | none => exact ⟨i, _, by simp only [ConvRace.step, epc, et]; rfl⟩
    | some g => exact ⟨i, _, by simp only [ConvRace.step, epc, et]; rfl⟩
  | lock r =>
    rw [epc] at hp
    cases r with
    | register k f v => exact absurd rfl (hp k f v)
    | unregister k => exact ⟨i, _, by simp only [ConvRace.step, epc]; rfl⟩
    | has k => exact ⟨i, _, by simp only [ConvRace.step, epc]; rfl⟩
    | convert k => exact ⟨i, _, by simp only [ConvRace.step, epc]; rfl⟩
  | invoke k f =>
    rw [epc] at hp
    cases f with
    | none => exact ⟨i, _, by simp only [ConvRace.step, epc]; rfl⟩
    | some f =>
      obtain ⟨w, ew⟩ := hp
      exact ⟨i, _, by simp only [ConvRace.step, epc, ew]; rfl⟩

theorem seq_won {m : Nat → Option Nat} {es : List Ev} {k : Nat} (h : Seq m es) (hu : ∀ e ∈ es, e.req ≠ .unregister k) :
    (m k ≠ none → es.countP (Won k) = 0 ∧ ∀ e ∈ es, e.req = .convert k → e.ans = .ran (m k)) ∧
    (m k = none → es.countP (Won k) ≤ 1 ∧ ((∃ e ∈ es, ∃ f v, e.req = .register k f v) → es.countP (Won k) = 1)) := by
  induction h with
  | nil m => simp
  | @registered m i k' f v w es h1 _ ih =>
    obtain ⟨a, b⟩ := ih fun e he => hu e (List.mem_cons_of_mem _ he)
    by_cases c : k = k'
    · subst c
      simp only [if_pos] at a
      obtain ⟨a1, a2⟩ := a (by simp)
      refine ⟨fun hn => absurd h1 hn, fun _ => ?_⟩
      simp [a1, Won]
    · simp only [c, if_false] at a b
      refine ⟨fun hn => ?_, fun hn => ?_⟩
      · obtain ⟨a1, a2⟩ := a hn
        refine ⟨by simp [a1, Won, Ne.symm c], fun e he er => ?_⟩
        rcases List.mem_cons.1 he with rfl | he
        · cases er
        · exact a2 e he er
      · obtain ⟨b1, b2⟩ := b hn
        have e0 : Won k ⟨i, .register k' f v, .flag true, some w⟩ = false := by simp [Won, Ne.symm c]
        simp only [List.countP_cons, e0, Bool.false_eq_true, if_false, Nat.add_zero]
        refine ⟨b1, ?_⟩
        rintro ⟨e, he, f', v', er⟩
        rcases List.mem_cons.1 he with rfl | he
        · cases er; exact absurd rfl c
        · exact b2 ⟨e, he, f', v', er⟩
  | @refused m i k' f v w es h1 _ ih =>
    obtain ⟨a, b⟩ := ih fun e he => hu e (List.mem_cons_of_mem _ he)
    have e0 : Won k ⟨i, .register k' f v, .flag false, some w⟩ = false := by simp [Won]
    simp only [List.countP_cons, e0, Bool.false_eq_true, if_false, Nat.add_zero]
    refine ⟨fun hn => ?_, fun hn => ?_⟩
    · obtain ⟨a1, a2⟩ := a hn
      refine ⟨a1, fun e he er => ?_⟩
      rcases List.mem_cons.1 he with rfl | he
      · cases er
      · exact a2 e he er
    · obtain ⟨b1, b2⟩ := b hn
      refine ⟨b1, ?_⟩
      rintro ⟨e, he, f', v', er⟩
      rcases List.mem_cons.1 he with rfl | he
      · cases er; exact absurd hn h1
      · exact b2 ⟨e, he, f', v', er⟩
  | @unregistered m i k' es _ ih =>
    obtain ⟨a, b⟩ := ih fun e he => hu e (List.mem_cons_of_mem _ he)
    have c : k ≠ k' := by
      rintro rfl
      exact hu ⟨i, .unregister k, .none, none⟩ List.mem_cons_self rfl
    simp only [c, if_false] at a b
    have e0 : Won k ⟨i, .unregister k', .none, none⟩ = false := by simp [Won]
    simp only [List.countP_cons, e0, Bool.false_eq_true, if_false, Nat.add_zero]
    refine ⟨fun hn => ?_, fun hn => ?_⟩
    · obtain ⟨a1, a2⟩ := a hn
      refine ⟨a1, fun e he er => ?_⟩
      rcases List.mem_cons.1 he with rfl | he
      · cases er
      · exact a2 e he er
    · obtain ⟨b1, b2⟩ := b hn
      refine ⟨b1, ?_⟩
      rintro ⟨e, he, f', v', er⟩
      rcases List.mem_cons.1 he with rfl | he
      · cases er
      · exact b2 ⟨e, he, f', v', er⟩
  | @has m i k' es _ ih =>
    obtain ⟨a, b⟩ := ih fun e he => hu e (List.mem_cons_of_mem _ he)
    have e0 : Won k ⟨i, .has k', .flag (m k').isSome, none⟩ = false := by simp [Won]
    simp only [List.countP_cons, e0, Bool.false_eq_true, if_false, Nat.add_zero]
    refine ⟨fun hn => ?_, fun hn => ?_⟩
    · obtain ⟨a1, a2⟩ := a hn
      refine ⟨a1, fun e he er => ?_⟩
      rcases List.mem_cons.1 he with rfl | he
      · cases er
      · exact a2 e he er
    · obtain ⟨b1, b2⟩ := b hn
      refine ⟨b1, ?_⟩
      rintro ⟨e, he, f', v', er⟩
      rcases List.mem_cons.1 he with rfl | he
      · cases er
      · exact b2 ⟨e, he, f', v', er⟩
  | @converted m i k' es _ ih =>
    obtain ⟨a, b⟩ := ih fun e he => hu e (List.mem_cons_of_mem _ he)
    have e0 : Won k ⟨i, .convert k', .ran (m k'), m k'⟩ = false := by simp [Won]
    simp only [List.countP_cons, e0, Bool.false_eq_true, if_false, Nat.add_zero]
    refine ⟨fun hn => ?_, fun hn => ?_⟩
    · obtain ⟨a1, a2⟩ := a hn
      refine ⟨a1, fun e he er => ?_⟩
      rcases List.mem_cons.1 he with rfl | he
      · cases er; rfl
      · exact a2 e he er
    · obtain ⟨b1, b2⟩ := b hn
      refine ⟨b1, ?_⟩
      rintro ⟨e, he, f', v', er⟩
      rcases List.mem_cons.1 he with rfl | he
      · cases er
      · exact b2 ⟨e, he, f', v', er⟩

end Rtti.ConvRace
