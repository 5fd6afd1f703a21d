import Verif.Lemmas.CallMem
/-! Calls of functions that return references (C82). -/
set_option autoImplicit false
namespace Rtti.CallMem
open VMem

def unit {A : Type} : Out A → Out Unit
  | .ok _ => .ok ()
  | .threw => .threw
  | .terminated => .terminated
  | .ub => .ub

theorem finally_unit {A : Type} {f : State → Out A × State} {f' : Step} (g : Step) (h : ∀ s, f' s = (unit (f s).1, (f s).2)) (s : State) :
    finally' f' g s = (unit (finally' f g s).1, (finally' f g s).2) := by
  unfold finally'
  rw [h s]
  rcases f s with ⟨o, s'⟩
  cases o <;> dsimp only [unit] <;> rcases g s' with ⟨o', s''⟩ <;> cases o' <;> rfl

theorem bind_unit {A B : Type} (m : M A) {k : A → State → Out B × State} {k' : A → Step} (h : ∀ a s, k' a s = (unit (k a s).1, (k a s).2)) (s : State) :
    bindM m k' s = (unit (bindM m k s).1, (bindM m k s).2) := by
  unfold bindM
  rcases m s.mem with ⟨o, m'⟩
  cases o with
  | ok a => exact h a _
  | _ => rfl

/-- what is returned apart, it is the same call -/
theorem bodyRef_unit (P : Prog) (f : List Nat → Option Nat) (ps : List Param) (i : Nat) (acc : List (Nat × Nat)) (s : State) :
    body P (fun vs => (f vs).isNone) i acc ps s = (unit (bodyRef P f i acc ps s).1, (bodyRef P f i acc ps s).2) := by
  induction ps generalizing i acc s with
  | nil =>
    unfold body bodyRef
    cases readAll s.mem acc with
    | none => rfl
    | some vs => dsimp only; cases f vs <;> rfl
  | cons p ps ih =>
    cases p with
    | direct => exact ih (i + 1) acc s
    | value t src =>
      unfold body bodyRef
      exact bind_unit _ (fun id s => finally_unit _ (fun s => ih (i + 1) _ s) s) s
    | dummy t src =>
      unfold body bodyRef
      refine bind_unit _ (fun r s => ?_) s
      unfold seq
      rcases store P t i r s with ⟨o, s'⟩
      cases o with
      | ok _ =>
        dsimp only
        cases inDummy P t i s' with
        | ok id => exact ih (i + 1) _ s'
        | _ => rfl
      | _ => rfl

theorem callRef_unit (P : Prog) (f : List Nat → Option Nat) (x : Nat) (ps : List Param) (s : State) :
    call P (fun vs => (f vs).isNone) x ps s = (unit (callRef P f x ps s).1, (callRef P f x ps s).2) :=
  finally_unit _ (fun s => bodyRef_unit P f ps x [] s) _

theorem destroyObj_gone {t id : Nat} {m : Mem} {j : Nat} (h : m.objs j = none) : (destroyObj t id m).2.objs j = none := by
  unfold destroyObj
  split
  · exact h
  · split
    · by_cases e : j = id <;> simp [upd, e, h]
    · exact h

theorem destroyObj_ok {t id : Nat} {m : Mem} (h : (destroyObj t id m).1 = .ok ()) : (destroyObj t id m).2.objs id = none := by
  revert h
  unfold destroyObj
  split
  · nofun
  · split
    · intro _; simp [upd]
    · nofun

theorem drop_mem (t id : Nat) (s : State) : (drop t id s).2 = ⟨s.env, (destroyObj t id s.mem).2⟩ ∧ (drop t id s).1 = (destroyObj t id s.mem).1 := by
  unfold drop lift
  rcases destroyObj t id s.mem with ⟨o, m⟩
  cases o <;> exact ⟨rfl, rfl⟩

theorem destroyObj_blocks (t id : Nat) (m : Mem) : (destroyObj t id m).2.blocks = m.blocks := by
  unfold destroyObj
  split
  · rfl
  · split <;> rfl

theorem inDummy_eq {P : Prog} {t x id : Nat} {s s' : State} (h : inDummy P t x s = .ok id) (he : s'.env (some x) = s.env (some x))
    (hb : ∀ b, (∃ i, s.mem.blocks b = some (some i)) → (∃ k, s.env (some x) = some ⟨k, .block b⟩) → s'.mem.blocks b = s.mem.blocks b) : inDummy P t x s' = .ok id := by
  unfold inDummy at h ⊢
  rw [he]
  rcases e : s.env (some x) with _ | ⟨k, c⟩
  · rw [e] at h; exact h
  rw [e] at h
  cases k with
  | own u =>
    dsimp only at h ⊢
    cases c with
    | block b =>
      have key : ∀ m : Mem, (inBlock b m).1 = .ok id → ∃ i, m.blocks b = some (some i) := by
        intro m h
        unfold inBlock at h
        cases hm : m.blocks b with
        | none => rw [hm] at h; cases h
        | some o =>
          cases o with
          | none => rw [hm] at h; cases h
          | some i => exact ⟨i, rfl⟩
      cases hp : (P.ty t).place with
      | small => rw [hp] at h; exact h
      | big | array =>
        rw [hp] at h
        have hb := hb b (key _ h) ⟨_, e⟩
        unfold locate inBlock at h ⊢
        dsimp only at h ⊢
        rw [hb]
        rcases hm : s.mem.blocks b with _ | _ | i <;> rw [hm] at h <;> exact h
    | _ => cases hp : (P.ty t).place <;> rw [hp] at h <;> exact h
  | _ => exact h

/-- the object is in one of the `m_dummy` -/
def InSome (P : Prog) (i n : Nat) (s : State) (id : Nat) : Prop := ∃ j t, i ≤ j ∧ j < i + n ∧ inDummy P t j s = .ok id

theorem finally_ok {A : Type} {f : State → Out A × State} {g : Step} {s s' : State} {a : A} (h : finally' f g s = (.ok a, s')) :
    ∃ s1, f s = (.ok a, s1) ∧ g s1 = (.ok (), s') := by
  unfold finally' at h
  rcases hf : f s with ⟨o, s1⟩
  rw [hf] at h
  cases o with
  | ok b =>
    dsimp only at h
    rcases hg : g s1 with ⟨o, s2⟩
    rw [hg] at h
    cases o <;> cases h
    exact ⟨s1, rfl, hg⟩
  | threw =>
    dsimp only at h
    rcases hg : g s1 with ⟨o, s2⟩
    rw [hg] at h
    cases o <;> cases h
  | _ => cases h

theorem bind_ok {A B : Type} {m : M A} {k : A → State → Out B × State} {s s' : State} {b : B} (h : bindM m k s = (.ok b, s')) :
    ∃ a m', m s.mem = (.ok a, m') ∧ k a { s with mem := m' } = (.ok b, s') := by
  unfold bindM at h
  rcases hm : m s.mem with ⟨o, m'⟩
  rw [hm] at h
  cases o with
  | ok a => exact ⟨a, m', rfl, h⟩
  | _ => cases h

/-- what `store` leaves in `m_dummy` when it returns -/
theorem store_ok {P : Prog} {t : Nat} (h : (P.ty t).place ≠ .array)
    (hc : (P.ty t).copyable = true ∨ (P.ty t).movable = true) {s s1 : State} {x r v : Nat} (hx : s.env (some x) = some fresh)
    (hn : s.env none = none) (hr : s.mem.objs r = some ⟨t, v⟩) (hlt : r < s.mem.nextObj) (hs : store P t x r s = (.ok (), s1)) :
    ∃ w l k, (∀ k, k ≠ some x → s1.env k = s.env k) ∧ Has P s1 s.mem.nextObj s1.mem.nextObj s.mem.nextBlock s1.mem.nextBlock x t w ∧
      Eff r s.mem.nextBlock s.mem s1.mem [t] l 0 k := by
  by_cases hoom : (P.ty t).place ≠ .small ∧ P.oom s.mem.nextBlock = true
  · have hst := store_oom (x := x) h hc hr hoom
    split at hst
    · rw [hs] at hst; cases hst
    · obtain ⟨_, es, _⟩ := hst
      rw [hs] at es; cases es
  have hst := store_spec h hc hx hn hr hlt hoom
  cases hmv : moveS P t v with
  | ok v' =>
    rw [hmv] at hst
    dsimp only at hst
    by_cases hsm : (P.ty t).place = .small
    · rw [if_pos hsm] at hst
      cases hmv2 : moveS P t v' with
      | ok v2 =>
        rw [hmv2] at hst
        obtain ⟨s2, es, henv1, hH, hE1, -⟩ := hst
        rw [hs] at es; cases es
        exact ⟨_, _, _, henv1, hH, hE1⟩
      | threw | terminated | ub => rw [hmv2] at hst; rw [hs] at hst; cases hst
    · rw [if_neg hsm] at hst
      obtain ⟨s2, es, henv1, hH, hE1, -⟩ := hst
      rw [hs] at es; cases es
      exact ⟨_, _, _, henv1, hH, hE1⟩
  | threw =>
    rw [hmv] at hst
    obtain ⟨m2, es, hE1⟩ := hst
    rw [hs] at es; cases es
  | terminated => rw [hmv] at hst; rw [hs] at hst; cases hst
  | ub => rw [hmv] at hst; exact hst.elim

/-- where an object is that a reference made in the body of a call is to, when the body is left -/
theorem bodyRef_where {P : Prog} (f : List Nat → Option Nat) (ps : List Param) (hf : ∀ p ∈ ps, p.Fine P) :
    ∀ (i : Nat) (acc : List (Nat × Nat)) (vs : List Nat) (s s' : State) (id : Nat), Args s.mem acc vs →
      (∀ k, i ≤ k → k < i + ps.length → s.env (some k) = some fresh) → s.env none = none →
      bodyRef P f i acc ps s = (.ok (some id), s') →
      id ∈ acc.map Prod.snd ∨ (s.mem.nextObj ≤ id ∧ (s'.mem.objs id = none ∨ InSome P i ps.length s' id)) := by
  induction ps with
  | nil =>
    intro i acc vs s s' id ha hs hn h
    unfold bodyRef at h
    rw [ha.read] at h
    dsimp only at h
    cases hv : f vs with
    | none => rw [hv] at h; cases h
    | some k =>
      rw [hv] at h
      dsimp only at h
      obtain ⟨h1, rfl⟩ := Prod.mk.inj h
      left
      have h := Out.ok.inj h1
      cases hk : acc[k]? with
      | none => rw [hk] at h; cases h
      | some p =>
        rw [hk] at h
        have hm := List.mem_of_getElem? hk
        cases h
        exact List.mem_map_of_mem hm
  | cons p ps ih =>
    intro i acc vs s s' id ha hs hn h
    have ih := ih fun p hp => hf p (.tail _ hp)
    have hf' : ∀ p ∈ ps, p.Fine P := fun p hp => hf p (.tail _ hp)
    have hp := hf p (.head _)
    simp only [List.length_cons] at hs ⊢
    cases p with
    | direct =>
      rcases ih (i + 1) acc vs s s' id ha (fun k a b => hs k (by omega) (by omega)) hn h with h | ⟨hlo, h | ⟨j, t, h1, h2, h3⟩⟩
      · exact .inl h
      · exact .inr ⟨hlo, .inl h⟩
      · exact .inr ⟨hlo, .inr ⟨j, t, by omega, by omega, h3⟩⟩
    | value t src =>
      unfold bodyRef at h
      obtain ⟨id0, m', e, h⟩ := bind_ok h
      obtain ⟨s1, hb, hd⟩ := finally_ok h
      have ht := to_spec hp.1 src s.mem
      rcases hto : toS P t src with ⟨o, l⟩
      rw [hto] at ht
      cases o with
      | threw => obtain ⟨_, e', _⟩ := ht; rw [e] at e'; cases e'
      | terminated => dsimp only at ht; rw [e] at ht; cases ht
      | ub => exact ht.elim
      | ok v =>
        obtain ⟨m2, id2, e', hob, hlo, hhi, rfl, hE, -⟩ := ht
        rw [e] at e'; cases e'
        have hd0 := drop_mem t id0 s1
        rw [hd] at hd0
        obtain ⟨rfl, ho⟩ := hd0
        rcases ih (i + 1) (acc ++ [(t, id0)]) (vs ++ [v]) ⟨s.env, m'⟩ s1 id ((ha.keep hE.objs hE.nextObj).snoc hob hhi)
          (fun k a b => hs k (by omega) (by omega)) hn hb with h | ⟨hlo', h | ⟨j, u, h1, h2, h3⟩⟩
        · rw [List.map_append, List.mem_append] at h
          rcases h with h | h
          · exact .inl h
          · have : id = id0 := by simpa using h
            subst this
            exact .inr ⟨hlo, .inl (destroyObj_ok ho.symm)⟩
        · exact .inr ⟨Nat.le_trans hE.nextObj hlo', .inl (destroyObj_gone h)⟩
        · refine .inr ⟨Nat.le_trans hE.nextObj hlo', .inr ⟨j, u, by omega, by omega, inDummy_eq h3 rfl fun b _ _ => ?_⟩⟩
          show (destroyObj t id0 s1.mem).2.blocks b = _
          rw [destroyObj_blocks]
    | dummy t src =>
      unfold bodyRef at h
      obtain ⟨r, m', e, h⟩ := bind_ok h
      have ht := to_spec hp.1 src s.mem
      rcases hto : toS P t src with ⟨o, l⟩
      rw [hto] at ht
      cases o with
      | threw => obtain ⟨_, e', _⟩ := ht; rw [e] at e'; cases e'
      | terminated => dsimp only at ht; rw [e] at ht; cases ht
      | ub => exact ht.elim
      | ok v =>
        obtain ⟨m2, r2, e', hob, hlo, hhi, rfl, hE, -⟩ := ht
        rw [e] at e'; cases e'
        rcases hst : store P t i r ⟨s.env, m'⟩ with ⟨o, s1⟩
        rw [hst] at h
        cases o with
        | ok u =>
          obtain ⟨w, l, kk, henv1, hH, hE1⟩ := store_ok hp.1 hp.2 (s := ⟨s.env, m'⟩) (x := i) (hs i (by omega) (by omega)) hn hob hhi hst
          obtain ⟨id0, hid, hid1, hid2, hid3⟩ := hH.bound hp.1
          dsimp only at h
          rw [hid] at h
          dsimp only at h
          have ha1 : Args s1.mem acc vs := ha.keep (fun j hj => by
            rw [hE1.objs j (by omega)]
            exact hE.objs j hj) (Nat.le_trans hE.nextObj hE1.nextObj)
          have ha2 := ha1.snoc hid3 hid2
          have hs2 : ∀ k, i + 1 ≤ k → k < i + 1 + ps.length → s1.env (some k) = some fresh :=
            fun k a b => by rw [henv1 _ (by simp; omega)]; exact hs k (by omega) (by omega)
          have hn2 : s1.env none = none := by rw [henv1 none nofun]; exact hn
          rcases ih (i + 1) (acc ++ [(t, id0)]) (vs ++ [w]) s1 s' id ha2 hs2 hn2 h with h' | ⟨hlo', h' | ⟨j, u, h1, h2, h3⟩⟩
          · rw [List.map_append, List.mem_append] at h'
            rcases h' with h' | h'
            · exact .inl h'
            · have : id = id0 := by simpa using h'
              subst this
              refine .inr ⟨Nat.le_trans hE.nextObj hid1, .inr ⟨i, t, by omega, by omega, ?_⟩⟩
              -- the rest of the body leaves this variant alone
              obtain ⟨s2, e2, hA⟩ := body_spec (fun vs => (f vs).isNone) ps hf' _ (i + 1) _ _ s1 rfl ha2 hs2 hn2
              rw [bodyRef_unit, h] at e2
              obtain ⟨e3, rfl⟩ := Prod.mk.inj e2
              obtain ⟨c, henv, hF, hE2⟩ := hA (by rw [← e3]; nofun)
              refine inDummy_eq hid (henv _ fun j hj => by cases hj; omega) fun b _ hk => ?_
              have hlt : b < s1.mem.nextBlock := by
                unfold Has at hH
                split at hH
                · obtain ⟨_, a, _⟩ := hH
                  obtain ⟨k, hk⟩ := hk
                  rw [a] at hk; cases hk
                · obtain ⟨b', _, a, _, hb, _⟩ := hH
                  obtain ⟨k, hk⟩ := hk
                  rw [a] at hk; cases hk
                  exact hb
              exact hE2.blocks b hlt
          · exact .inr ⟨Nat.le_trans hE.nextObj (Nat.le_trans hE1.nextObj hlo'), .inl h'⟩
          · exact .inr ⟨Nat.le_trans hE.nextObj (Nat.le_trans hE1.nextObj hlo'), .inr ⟨j, u, by omega, by omega, h3⟩⟩
        | _ => cases h

/-! Destroying the variants. -/

theorem deallocate_objs (b : Nat) (m : Mem) : (deallocate b m).2.objs = m.objs := by
  unfold deallocate
  split <;> rfl

theorem fDestroy_gone {P : Prog} {k : Mgr} {c : Cell} {m : Mem} {j : Nat} (h : m.objs j = none) : (fDestroy P k c m).2.objs j = none := by
  have big : ∀ b t, (M.bind (inBlock b) (fun id => M.bind (destroyObj t id) fun _ => deallocate b) m).2.objs j = none := by
    intro b t
    unfold M.bind inBlock
    rcases hb : m.blocks b with _ | _ | id
    · exact h
    · exact h
    · dsimp only
      have hg := destroyObj_gone (t := t) (id := id) h
      rcases hd : destroyObj t id m with ⟨o, m'⟩
      rw [hd] at hg
      cases o with
      | ok _ => dsimp only; rw [deallocate_objs]; exact hg
      | _ => exact hg
  cases k with
  | void => exact h
  | ref _ => exact h
  | own t =>
    unfold fDestroy
    dsimp only
    cases hp : (P.ty t).place <;> cases c <;> first
      | exact h
      | exact destroyObj_gone h
      | exact big _ _

theorem doDestroy_gone {P : Prog} {k : Option Nat} {s : State} {j : Nat} (h : s.mem.objs j = none) : (doDestroy P k s).2.mem.objs j = none := by
  unfold doDestroy
  split
  · exact h
  · rename_i x _
    have hg := fDestroy_gone (P := P) (k := x.mgr) (c := x.cell) h
    unfold lift VMem.clear
    simp only [bind, M.bind]
    rcases hd : fDestroy P x.mgr x.cell s.mem with ⟨o, m'⟩
    rw [hd] at hg
    cases o <;> exact hg

/-- nothing in the variants survives -/
theorem destroyAll_kills {P : Prog} {n : Nat} {s s' : State} {lo blo i : Nat} {c : List Nat} (h : Filled P s lo blo i n c)
    (e : destroyAll P i n s = (.ok (), s')) {id : Nat} (hs : s.mem.objs id = none ∨ InSome P i n s id) : s'.mem.objs id = none := by
  induction n generalizing lo blo i c s' with
  | zero =>
    cases e
    rcases hs with hs | ⟨j, t, h1, h2, _⟩
    · exact hs
    · omega
  | succ n ih =>
    obtain ⟨mid, bmid, h1, h2, h3⟩ := h
    have hF : ∃ c', Filled P s mid bmid (i + 1) n c' := by
      rcases h3 with ⟨_, h4⟩ | ⟨_, _, c', _, _, h4⟩ <;> exact ⟨_, h4⟩
    obtain ⟨c', hF⟩ := hF
    obtain ⟨s1, e1, hn, ho, hE⟩ := destroyAll_spec hF
    have e2 : doDestroy P (some i) s1 = (.ok (), s') := by
      simpa [destroyAll, seq, e1] using e
    by_cases hlate : s.mem.objs id = none ∨ InSome P (i + 1) n s id
    · have := ih hF e1 hlate
      have := doDestroy_gone (P := P) (k := some i) this
      rwa [e2] at this
    · have hi : ∃ t, inDummy P t i s = .ok id := by
        rcases hs with hs | ⟨j, t, ha, hb, hc⟩
        · exact absurd (.inl hs) hlate
        · by_cases hj : j = i
          · exact ⟨t, hj ▸ hc⟩
          · exact absurd (.inr ⟨j, t, by omega, by omega, hc⟩) hlate
      obtain ⟨u, hi⟩ := hi
      rcases h3 with ⟨h3, _⟩ | ⟨t, v, _, _, hh, _⟩
      · rw [inDummy, h3] at hi; cases hi
      · have hh' : Has P s1 lo mid blo bmid i t v :=
          hh.congr (ho (some i) fun j hj => by cases hj; omega) (fun id _ h => hE.objs id h) (fun b _ h => hE.blocks b h)
        have hi' : inDummy P u i s1 = .ok id := inDummy_eq hi (ho (some i) fun j hj => by cases hj; omega) fun b _ hk => by
          unfold Has at hh
          split at hh
          · obtain ⟨_, a, _⟩ := hh
            obtain ⟨k, hk⟩ := hk
            rw [a] at hk; cases hk
          · obtain ⟨b', _, a, _, hb, _⟩ := hh
            obtain ⟨k, hk⟩ := hk
            rw [a] at hk; cases hk
            exact hE.blocks b hb
        unfold Has at hh'
        by_cases hp : (P.ty t).place = .small
        · rw [if_pos hp] at hh'
          obtain ⟨id', he, hlo, hhi, hob⟩ := hh'
          have : id' = id := by
            unfold inDummy locate at hi'
            rw [he] at hi'
            cases hq : (P.ty u).place <;> rw [hq] at hi' <;> cases hi'
            rfl
          subst this
          simp [doDestroy, he, VMem.clear, fDestroy, hp, lift, bind, M.bind, pure, M.pure, destroyObj_eq hob] at e2
          rw [← e2]
          simp [put, Mem.dead, upd]
        · rw [if_neg hp] at hh'
          obtain ⟨b, id', he, hblo, hbhi, hbl, hlo, hhi, hob⟩ := hh'
          have : id' = id := by
            unfold inDummy locate at hi'
            rw [he] at hi'
            cases hq : (P.ty u).place <;> rw [hq] at hi' <;> simp [M.ub, inBlock, hbl] at hi' <;> exact hi'
          subst this
          have hd : destroyObj t id' s1.mem = (.ok (), Mem.dead s1.mem t id') := destroyObj_eq hob
          have hg : (fDestroy P (.own t) (.block b) s1.mem).2.objs id' = none := by
            unfold fDestroy
            cases hq : (P.ty t).place with
            | small => exact absurd hq hp
            | big => simp [locate, inBlock, hbl, bind, M.bind, hd, deallocate, Mem.dead, upd]
            | array => simp [locate, inBlock, hbl, bind, M.bind, hd, deallocate, Mem.dead, upd]
          rw [doDestroy, he] at e2
          dsimp only at e2
          unfold lift VMem.clear at e2
          simp only [bind, M.bind, pure, M.pure] at e2
          rcases hfd : fDestroy P (.own t) (.block b) s1.mem with ⟨o, m'⟩
          rw [hfd] at e2 hg
          cases o <;> cases e2
          exact hg

theorem readAll_length {m : Mem} {l : List (Nat × Nat)} {vs : List Nat} (h : readAll m l = some vs) : vs.length = l.length := by
  induction l generalizing vs with
  | nil => cases h; rfl
  | cons p l ih =>
    obtain ⟨t, id⟩ := p
    unfold readAll at h
    split at h
    · split at h
      · cases hr : readAll m l with
        | none => rw [hr] at h; cases h
        | some ws => rw [hr] at h; cases h; simp [ih hr]
      · cases h
    · cases h

/-- the number of parameters with objects of their own -/
def owners : List Param → Nat
  | [] => 0
  | .direct :: ps => owners ps
  | _ :: ps => owners ps + 1

theorem bodyRef_which {P : Prog} {f : List Nat → Option Nat} {ps : List Param} {i : Nat} {acc : List (Nat × Nat)} {s s' : State} {o : Option Nat}
    (h : bodyRef P f i acc ps s = (.ok o, s')) :
    ∃ vs k, f vs = some k ∧ vs.length = acc.length + owners ps ∧ (o = none ↔ vs.length ≤ k) := by
  induction ps generalizing i acc s s' with
  | nil =>
    unfold bodyRef at h
    cases hr : readAll s.mem acc with
    | none => rw [hr] at h; cases h
    | some vs =>
      rw [hr] at h
      dsimp only at h
      cases hv : f vs with
      | none => rw [hv] at h; cases h
      | some k =>
        rw [hv] at h
        dsimp only at h
        obtain ⟨h1, -⟩ := Prod.mk.inj h
        have h1 := Out.ok.inj h1
        have hl := readAll_length hr
        refine ⟨vs, k, hv, by simp [hl, owners], ?_⟩
        rw [← h1, hl]
        simp
  | cons p ps ih =>
    cases p with
    | direct => exact ih (i := i + 1) h
    | value t src =>
      unfold bodyRef at h
      obtain ⟨id0, m', e, h⟩ := bind_ok h
      obtain ⟨s1, hb, hd⟩ := finally_ok h
      obtain ⟨vs, k, h1, h2, h3⟩ := ih hb
      exact ⟨vs, k, h1, by simp [h2, owners]; omega, h3⟩
    | dummy t src =>
      unfold bodyRef at h
      obtain ⟨r, m', e, h⟩ := bind_ok h
      rcases hst : store P t i r { s with mem := m' } with ⟨u, s1⟩
      rw [hst] at h
      cases u with
      | ok _ =>
        dsimp only at h
        cases hd : inDummy P t i s1 with
        | ok id =>
          rw [hd] at h
          obtain ⟨vs, k, h1, h2, h3⟩ := ih h
          exact ⟨vs, k, h1, by simp [h2, owners]; omega, h3⟩
        | _ => rw [hd] at h; cases h
      | _ => cases h

theorem Args.lt {m : Mem} {l : List (Nat × Nat)} {vs : List Nat} (h : Args m l vs) : ∀ p ∈ l, p.2 < m.nextObj := by
  induction l generalizing vs with
  | nil => nofun
  | cons p l ih =>
    obtain ⟨t, id⟩ := p
    cases vs with
    | nil => exact h.elim
    | cons v vs =>
      intro p hp
      rcases List.mem_cons.1 hp with rfl | hp
      · exact h.2.1
      · exact ih h.2.2 p hp

/-- the parameters' objects, in order -/
def Inc (acc : List (Nat × Nat)) : Prop := acc.Pairwise fun p q => p.2 < q.2

theorem Inc.snoc {acc : List (Nat × Nat)} (h : Inc acc) {t id : Nat} (hl : ∀ p ∈ acc, p.2 < id) : Inc (acc ++ [(t, id)]) := by
  refine List.pairwise_append.2 ⟨h, List.pairwise_singleton _ _, fun p hp q hq => ?_⟩
  cases List.mem_singleton.1 hq
  exact hl p hp

/-- references to two parameters, in the same call, are to two objects, made in the order of the parameters -/
theorem bodyRef_order {P : Prog} (f g : List Nat → Option Nat)
    (hfg : ∀ vs j k, f vs = some j → g vs = some k → j < k) (ps : List Param) (hf : ∀ p ∈ ps, p.Fine P) :
    ∀ (i : Nat) (acc : List (Nat × Nat)) (vs : List Nat) (s s1 s2 : State) (a b : Nat), Args s.mem acc vs → Inc acc →
      (∀ k, i ≤ k → k < i + ps.length → s.env (some k) = some fresh) → s.env none = none →
      bodyRef P f i acc ps s = (.ok (some a), s1) → bodyRef P g i acc ps s = (.ok (some b), s2) → a < b := by
  induction ps with
  | nil =>
    intro i acc vs s s1 s2 a b ha hi hs hn h1 h2
    unfold bodyRef at h1 h2
    rw [ha.read] at h1 h2
    dsimp only at h1 h2
    cases hv : f vs with
    | none => rw [hv] at h1; cases h1
    | some j =>
      cases hw : g vs with
      | none => rw [hw] at h2; cases h2
      | some k =>
        rw [hv] at h1; rw [hw] at h2
        dsimp only at h1 h2
        have e1 := Out.ok.inj (Prod.mk.inj h1).1
        have e2 := Out.ok.inj (Prod.mk.inj h2).1
        obtain ⟨p, hp, rfl⟩ := Option.map_eq_some_iff.1 e1
        obtain ⟨q, hq, rfl⟩ := Option.map_eq_some_iff.1 e2
        obtain ⟨hj, rfl⟩ := List.getElem?_eq_some_iff.1 hp
        obtain ⟨hk, rfl⟩ := List.getElem?_eq_some_iff.1 hq
        exact List.pairwise_iff_getElem.1 hi j k hj hk (hfg vs j k hv hw)
  | cons p ps ih =>
    intro i acc vs s s1 s2 a b ha hi hs hn h1 h2
    have ih := ih fun p hp => hf p (.tail _ hp)
    have hp := hf p (.head _)
    simp only [List.length_cons] at hs
    cases p with
    | direct => exact ih (i + 1) acc vs s s1 s2 a b ha hi (fun k a b => hs k (by omega) (by omega)) hn h1 h2
    | value t src =>
      unfold bodyRef at h1 h2
      obtain ⟨id0, m', e, h1⟩ := bind_ok h1
      obtain ⟨id1, m1, e1, h2⟩ := bind_ok h2
      rw [e] at e1; cases e1
      obtain ⟨u1, hb1, -⟩ := finally_ok h1
      obtain ⟨u2, hb2, -⟩ := finally_ok h2
      have ht := to_spec hp.1 src s.mem
      rcases hto : toS P t src with ⟨o, l⟩
      rw [hto] at ht
      cases o with
      | threw => obtain ⟨_, e', _⟩ := ht; rw [e] at e'; cases e'
      | terminated => dsimp only at ht; rw [e] at ht; cases ht
      | ub => exact ht.elim
      | ok v =>
        obtain ⟨m2, id2, e', hob, hlo, hhi, rfl, hE, -⟩ := ht
        rw [e] at e'; cases e'
        exact ih (i + 1) (acc ++ [(t, id0)]) (vs ++ [v]) ⟨s.env, m'⟩ u1 u2 a b ((ha.keep hE.objs hE.nextObj).snoc hob hhi)
          (hi.snoc fun p hp => Nat.lt_of_lt_of_le (ha.lt p hp) hlo) (fun k a b => hs k (by omega) (by omega)) hn hb1 hb2
    | dummy t src =>
      unfold bodyRef at h1 h2
      obtain ⟨r, m', e, h1⟩ := bind_ok h1
      obtain ⟨r1, m1, e1, h2⟩ := bind_ok h2
      rw [e] at e1; cases e1
      have ht := to_spec hp.1 src s.mem
      rcases hto : toS P t src with ⟨o, l⟩
      rw [hto] at ht
      cases o with
      | threw => obtain ⟨_, e', _⟩ := ht; rw [e] at e'; cases e'
      | terminated => dsimp only at ht; rw [e] at ht; cases ht
      | ub => exact ht.elim
      | ok v =>
        obtain ⟨m2, r2, e', hob, hlo, hhi, rfl, hE, -⟩ := ht
        rw [e] at e'; cases e'
        rcases hst : store P t i r ⟨s.env, m'⟩ with ⟨o, u⟩
        rw [hst] at h1 h2
        cases o with
        | ok _ =>
          obtain ⟨w, l, kk, henv1, hH, hE1⟩ := store_ok hp.1 hp.2 (s := ⟨s.env, m'⟩) (x := i) (hs i (by omega) (by omega)) hn hob hhi hst
          obtain ⟨id0, hid, hid1, hid2, hid3⟩ := hH.bound hp.1
          dsimp only at h1 h2
          rw [hid] at h1 h2
          dsimp only at h1 h2
          have ha1 : Args u.mem acc vs := ha.keep (fun j hj => by
            rw [hE1.objs j (by omega)]
            exact hE.objs j hj) (Nat.le_trans hE.nextObj hE1.nextObj)
          exact ih (i + 1) (acc ++ [(t, id0)]) (vs ++ [w]) u s1 s2 a b (ha1.snoc hid3 hid2)
            (hi.snoc fun p hp => Nat.lt_of_lt_of_le (ha.lt p hp) (Nat.le_trans hE.nextObj hid1))
            (fun k a b => by rw [henv1 _ (by simp; omega)]; exact hs k (by omega) (by omega)) (by rw [henv1 none nofun]; exact hn) h1 h2
        | _ => cases h1

end Rtti.CallMem
