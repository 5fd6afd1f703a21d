import Verif.Spec.VariantExact
import Verif.Lemmas.VariantLog
/-! The variants in memory and the machine without memory go together, step by step. -/
set_option autoImplicit false
set_option linter.unusedSectionVars false
namespace Rtti.VMem

section
variable {K : Type} [DecidableEq K]

/-- so many more objects were made and so many ended -/
def Counts (m m' : Mem) (a b : Nat) : Prop := made m'.log = made m.log + a ∧ ended m'.log = ended m.log + b

theorem Counts.same {m : Mem} : Counts m m 0 0 := ⟨rfl, rfl⟩
theorem Counts.odd {m : Mem} {o : Bool} : Counts m { m with odd := o } 0 0 := ⟨rfl, rfl⟩
theorem Counts.trans {m m' m'' : Mem} {a b a' b' : Nat} (h : Counts m m' a b) (h' : Counts m' m'' a' b') :
    Counts m m'' (a + a') (b + b') := by
  unfold Counts at *; omega
theorem Counts.lost {m m' : Mem} (h : Lost m m') : Counts m m' 0 0 := by
  cases h <;> exact ⟨rfl, rfl⟩
theorem Counts.set {m : Mem} {t v id r : Nat} : Counts m ((m.born t v).set id t r) 1 0 := ⟨rfl, rfl⟩
theorem Counts.of_eq {m m' : Mem} {a b a' b' : Nat} (h : Counts m m' a b) (e : a = a') (e' : b = b') : Counts m m' a' b' := e ▸ e' ▸ h

/-- a new object with the value, or the same failure -/
def give (t : Nat) (o : Out Nat) (m : Mem) : Out Nat × Mem :=
  match o with
  | .ok v => (.ok m.nextObj, m.born t v)
  | .threw => (.threw, m)
  | .terminated => (.terminated, m)
  | .ub => (.ub, m)

theorem copyVal_is (P : Prog) (t v : Nat) (m : Mem) : copyVal P t v m = give t (copied P t v) m := by
  unfold copyVal copied brokenArray
  cases hc : (P.ty t).copyable with
  | false => rfl
  | true =>
    by_cases hb : (P.ty t).place = .array ∧ (P.ty t).trivial = false
    · simp [hb, give]
    · have : (decide ((P.ty t).place = .array) && !(P.ty t).trivial) = false := by simpa using hb
      simp only [hb, this]
      cases (P.ty t).copy v <;> rfl

theorem moveVal_is (P : Prog) (t v : Nat) (m : Mem) :
    ∃ r, moveVal P t v m = ((give t (moved P t v) m).1.bind fun id => .ok (id, r), (give t (moved P t v) m).2) := by
  unfold moveVal moved
  by_cases hm : (P.ty t).movable = true
  · simp only [hm, if_true]
    by_cases hb : (P.ty t).place = .array ∧ (P.ty t).trivial = false
    · exact ⟨0, by simp [hb, brokenArray, give, Out.bind]⟩
    · have : brokenArray P t = false := by simpa [brokenArray] using hb
      simp only [hb, this]
      cases (P.ty t).move v with
      | none => exact ⟨0, rfl⟩
      | some p => exact ⟨p.2, rfl⟩
  · simp only [hm, copyVal_is]
    refine ⟨v, ?_⟩
    cases copied P t v <;> rfl

theorem moveNew_is (P : Prog) (t v : Nat) (m : Mem) : moveNew P t v m = give t (moved P t v) m := by
  obtain ⟨r, e⟩ := moveVal_is P t v m
  simp only [moveNew, bind, M.bind, e, pure, M.pure]
  cases moved P t v <;> rfl

theorem moveObj_is (P : Prog) {t id v : Nat} {m : Mem} (ho : m.objs id = some ⟨t, v⟩) :
    ∃ r, moveObj P t id m = match moved P t v with
      | .ok v' => (.ok m.nextObj, (m.born t v').set id t r)
      | .threw => (.threw, m)
      | .terminated => (.terminated, m)
      | .ub => (.ub, m) := by
  obtain ⟨r, e⟩ := moveVal_is P t v m
  refine ⟨r, ?_⟩
  simp only [moveObj, ho, e, if_true]
  cases moved P t v <;> rfl

theorem moved_defined {P : Prog} {t v : Nat} (h : (P.ty t).place ≠ .array) : moved P t v ≠ .ub := by
  unfold moved copied brokenArray
  simp only [h, decide_false, Bool.false_and]
  split
  · simp only [Bool.false_eq_true, if_false]
    split <;> simp
  · split
    · simp
    · simp only [Bool.false_eq_true, if_false]
      split <;> simp

theorem moved_back {P : Prog} {t v : Nat} : moved P t v ≠ .terminated := by
  unfold moved copied
  repeat' split
  all_goals simp

theorem copied_back {P : Prog} {t v : Nat} : copied P t v ≠ .terminated := by
  unfold copied
  repeat' split
  all_goals simp

theorem content_void {P : Prog} {env : K → Option Var} {m : Mem} (inv : Inv P env m) {k : K} {g : Mgr} {c : Cell} {a : Content}
    (hk : env k = some ⟨g, c⟩) (h : content m ⟨g, c⟩ = some a) : a = .empty ↔ g = .void := by
  cases g with
  | void => simp [content] at h; simp [h]
  | ref t => obtain ⟨x, rfl⟩ := inv.refs k t c hk; simp [content] at h; simp [← h]
  | own t =>
    obtain ⟨id, v, _, h', _⟩ := inv.located hk
    rw [h'] at h; cases h; simp

/-- the same content up to the value -/
inductive Alike : Content → Content → Prop
  | refl {a : Content} : Alike a a
  | val {t v v' : Nat} : Alike (.val t v) (.val t v')

theorem Alike.inside {P : Prog} {a b : Content} (h : Alike a b) : inside P a = inside P b := by cases h <;> rfl
theorem Alike.holds {a b : Content} (h : Alike a b) : holds a = holds b := by cases h <;> rfl
theorem Alike.moves {P : Prog} {a b : Content} (h : Alike a b) (c : Content) : swapMoves P a c = swapMoves P b c := by
  cases h
  · rfl
  · simp [swapMoves, VMem.inside]

theorem moveContent_alike {P : Prog} {a a' : Content} (h : moveContent P a = .ok a') : Alike a' a := by
  cases a with
  | val t v =>
    unfold moveContent at h
    dsimp only at h
    split at h
    · cases hm : (moved P t v).sealed (P.ty t).nothrowMove with
      | ok v' => rw [hm] at h; cases h; exact .val
      | _ => rw [hm] at h; cases h
    · cases h; exact .refl
  | _ => cases h; exact .refl

theorem moveContent_inside {P : Prog} {a a' : Content} (h : moveContent P a = .ok a') : inside P a' = inside P a :=
  (moveContent_alike h).inside

theorem Out.bind_ok {A B : Type} {x : Out A} {f : A → Out B} {b : B} (h : x.bind f = .ok b) : ∃ a, x = .ok a ∧ f a = .ok b := by
  cases x with
  | ok a => exact ⟨a, rfl, h⟩
  | _ => cases h

theorem Out.sealed_ok {A : Type} {x : Out A} {q : Bool} {a : A} (h : x.sealed q = .ok a) : x = .ok a := by
  cases x <;> cases q <;> simp_all [Out.sealed]

theorem swapContent_alike {P : Prog} {a b : Content} {q : Content × Content} (h : swapContent P a b = .ok q) :
    Alike q.1 b ∧ Alike q.2 a := by
  unfold swapContent at h
  replace h := Out.sealed_ok h
  split at h
  · rename_i e; subst e
    obtain ⟨b', h1, h2⟩ := Out.bind_ok h
    cases h2; exact ⟨moveContent_alike h1, .refl⟩
  · split at h
    · rename_i e; subst e
      obtain ⟨b', h1, h2⟩ := Out.bind_ok h
      cases h2; exact ⟨.refl, moveContent_alike h1⟩
    · obtain ⟨a', h1, h⟩ := Out.bind_ok h
      obtain ⟨b', h2, h⟩ := Out.bind_ok h
      obtain ⟨a'', h3, h⟩ := Out.bind_ok h
      cases h
      refine ⟨moveContent_alike h2, ?_⟩
      have h1 := moveContent_alike h1
      have h3 := moveContent_alike h3
      dsimp only
      cases h3
      · exact h1
      · cases h1 <;> exact .val

theorem swapContent_holds {P : Prog} {a b : Content} {q : Content × Content} (h : swapContent P a b = .ok q) :
    holds q.1 = holds b := (swapContent_alike h).1.holds

theorem stored_alike {P : Prog} {t : Nat} {q : Bool} {o : Out Nat} {n : Nat} {c : Content} (h : (stored P t q o n).1 = .ok c) (v : Nat) :
    Alike c (.val t v) := by
  have key : ((o.sealed q).bind fun v => Out.ok (Content.val t v)) = .ok c → Alike c (.val t v) := by
    intro h
    obtain ⟨v', _, h'⟩ := Out.bind_ok h
    cases h'; exact .val
  unfold stored at h
  split at h
  · exact key h
  · split at h
    · cases q <;> simp [Out.sealed] at h
    · exact key h

theorem copyContent_alike {P : Prog} {b c : Content} {n : Nat} (h : (copyContent P b n).1 = .ok c) : Alike c b := by
  cases b with
  | val t v => exact stored_alike h v
  | _ => cases h; exact .refl

theorem fromValue_alike {P : Prog} {t v n : Nat} {r : Bool} {c : Content} (h : (fromValue P t v r n).1 = .ok c) : Alike c (.val t v) := by
  unfold fromValue at h
  cases r <;> exact stored_alike h v

/-- moving between two storages, exactly -/
theorem transfer_exact {P : Prog} {env : K → Option Var} {m : Mem} {k l : K} {mgr : Mgr} {src dst : Cell} {a : Content}
    (inv : Inv P env m) (hk : env k = some ⟨mgr, src⟩) (hl : env l = some ⟨.void, dst⟩) (hv : mgr ≠ .void)
    (ha : content m ⟨mgr, src⟩ = some a) :
    (∃ s' d' m' a', fMove P mgr src dst m = (.ok (s', d'), m') ∧ moveContent P a = .ok a' ∧
      content m' ⟨mgr, d'⟩ = some a' ∧ m'.nextBlock = m.nextBlock ∧ Counts m m' (inside P a) 0 ∧
      Inv P (upd (upd env k (some ⟨.void, s'⟩)) l (some ⟨mgr, d'⟩)) m' ∧
      Same (fun j => j ≠ k ∧ j ≠ l) env m m') ∨
    (∃ m', fMove P mgr src dst m = (.threw, m') ∧ moveContent P a = .threw) ∨
    (∃ m', fMove P mgr src dst m = (.terminated, m') ∧ moveContent P a = .terminated) := by
  have key : ∀ {s' d' m' a'}, fMove P mgr src dst m = (.ok (s', d'), m') → moveContent P a = .ok a' →
      content m' ⟨mgr, d'⟩ = some a' → m'.nextBlock = m.nextBlock → Counts m m' (inside P a) 0 →
      (∃ s' d' m' a', fMove P mgr src dst m = (.ok (s', d'), m') ∧ moveContent P a = .ok a' ∧
      content m' ⟨mgr, d'⟩ = some a' ∧ m'.nextBlock = m.nextBlock ∧ Counts m m' (inside P a) 0 ∧
      Inv P (upd (upd env k (some ⟨.void, s'⟩)) l (some ⟨mgr, d'⟩)) m' ∧
      Same (fun j => j ≠ k ∧ j ≠ l) env m m') := by
    intro s' d' m' a' e h1 h2 h3 hcn
    rcases transfer inv hk hl hv with ⟨s'', d'', m'', e', i, -, sm, -⟩ | ⟨_, m'', e' | e'⟩
    · rw [e] at e'; cases e'
      exact ⟨_, _, _, _, e, h1, h2, h3, hcn, i, sm⟩
    · rw [e] at e'; cases e'
    · rw [e] at e'; cases e'
  cases mgr with
  | void => exact absurd rfl hv
  | ref t =>
    obtain ⟨x, rfl⟩ := inv.refs k t _ hk
    cases ha
    exact .inl (key rfl rfl rfl rfl .same)
  | own t =>
    by_cases hp : (P.ty t).place = .small
    · obtain ⟨id, v, rfl, ho⟩ := inv.small k t _ hk hp
      have : a = .val t v := by simpa [content, ho] using ha.symm
      subst this
      obtain ⟨r, e⟩ := moveObj_is P ho
      cases hm : moved P t v with
      | ok v' =>
        rw [hm] at e
        refine .inl (key (s' := .obj id) (d' := .obj m.nextObj) (m' := (m.born t v').set id t r) (a' := .val t v') ?_ ?_ ?_ rfl
          (Counts.set.of_eq (by simp [inside, hp]) rfl))
        · simp [fMove, hp, noexcept, bind, M.bind, pure, M.pure, e]
        · simp [moveContent, hp, hm, Out.sealed, Out.bind]
        · have := inv.olt id _ ho
          simp only [content, Mem.born, Mem.set, upd]
          rw [if_neg (by omega)]; simp
      | threw =>
        rw [hm] at e
        by_cases hq : (P.ty t).nothrowMove = true
        · exact .inr (.inr ⟨m, by simp [fMove, hp, noexcept, bind, M.bind, e, hq], by simp [moveContent, hp, hm, Out.sealed, Out.bind, hq]⟩)
        · exact .inr (.inl ⟨m, by simp [fMove, hp, noexcept, bind, M.bind, e, hq], by simp [moveContent, hp, hm, Out.sealed, Out.bind, hq]⟩)
      | terminated => exact absurd hm moved_back
      | ub => exact absurd hm (moved_defined (by rw [hp]; simp))
    · obtain ⟨b, id, v, rfl, hb, ho⟩ := inv.big k t _ hk hp
      have : a = .val t v := by simpa [content, hb, ho] using ha.symm
      subst this
      obtain ⟨o, ho'⟩ := readPtr_cases dst m
      refine .inl (key (s' := dst) (d' := .block b) (m' := { m with odd := o }) (a' := .val t v) ?_ ?_ ?_ rfl
        (Counts.odd.of_eq (by simp [inside, hp]) rfl))
      · have : readPtr (.block b) m = (.ok (), m) := rfl
        have h' : (P.ty t).place = .big ∨ (P.ty t).place = .array := by cases h : (P.ty t).place <;> simp_all
        rcases h' with h' | h' <;> simp [fMove, h', bind, M.bind, this, ho', pure, M.pure]
      · simp [moveContent, hp]
      · simp [content, hb, ho]

theorem swap_exact {P : Prog} {env : K → Option Var} {m : Mem} {k l : K} {x y : Var} {a b : Content}
    (inv : Inv P env m) (hk : env k = some x) (hl : env l = some y) (kl : k ≠ l)
    (ha : content m x = some a) (hb : content m y = some b) :
    (∃ x' y' m' a' b', swap P x y m = (.ok (x', y'), m') ∧ swapContent P a b = .ok (a', b') ∧
      content m' x' = some a' ∧ content m' y' = some b' ∧ m'.nextBlock = m.nextBlock ∧ Counts m m' (swapMoves P a b) 0 ∧
      Inv P (upd (upd env k (some x')) l (some y')) m' ∧
      Same (fun j => j ≠ k ∧ j ≠ l) env m m') ∨
    (∃ m', swap P x y m = (.terminated, m') ∧ swapContent P a b = .terminated) := by
  have key : ∀ {x' y' m' a' b'}, swap P x y m = (.ok (x', y'), m') → swapContent P a b = .ok (a', b') →
      content m' x' = some a' → content m' y' = some b' → m'.nextBlock = m.nextBlock → Counts m m' (swapMoves P a b) 0 →
      (∃ x' y' m' a' b', swap P x y m = (.ok (x', y'), m') ∧ swapContent P a b = .ok (a', b') ∧
      content m' x' = some a' ∧ content m' y' = some b' ∧ m'.nextBlock = m.nextBlock ∧ Counts m m' (swapMoves P a b) 0 ∧
      Inv P (upd (upd env k (some x')) l (some y')) m' ∧
      Same (fun j => j ≠ k ∧ j ≠ l) env m m') := by
    intro x' y' m' a' b' e h1 h2 h3 h4 hcn
    rcases swap_fine inv hk hl kl with ⟨x'', y'', m'', e', i, -, sm, -⟩ | ⟨_, m'', e'⟩
    · rw [e] at e'; cases e'
      exact ⟨_, _, _, _, _, e, h1, h2, h3, h4, hcn, i, sm⟩
    · rw [e] at e'; cases e'
  obtain ⟨xm, xc⟩ := x
  obtain ⟨ym, yc⟩ := y
  have va := content_void inv hk ha
  have vb := content_void inv hl hb
  by_cases hx : xm = .void
  · subst hx
    have : a = .empty := va.2 rfl
    subst this
    by_cases hy : ym = .void
    · subst hy
      have : b = .empty := vb.2 rfl
      subst this
      exact .inl (key (x' := ⟨.void, xc⟩) (y' := ⟨.void, yc⟩) (m' := m) (by simp [swap, noexcept, pure, M.pure]) rfl rfl rfl rfl .same)
    · rcases transfer_exact inv hl hk hy hb with ⟨s', d', m', b', e, h1, h2, h3, hcn, -⟩ | ⟨m', e, h⟩ | ⟨m', e, h⟩
      · refine .inl (key (x' := ⟨ym, d'⟩) (y' := ⟨.void, .null⟩) (m' := m') (a' := b') (b' := .empty) ?_ ?_ h2 rfl h3
          (hcn.of_eq (by simp [swapMoves]) rfl))
        · simp [swap, noexcept, hy, bind, M.bind, e, pure, M.pure]
        · simp [swapContent, h1, Out.bind, Out.sealed]
      · exact .inr ⟨m', by simp [swap, noexcept, hy, bind, M.bind, e], by simp [swapContent, h, Out.bind, Out.sealed]⟩
      · exact .inr ⟨m', by simp [swap, noexcept, hy, bind, M.bind, e], by simp [swapContent, h, Out.bind, Out.sealed]⟩
  · have hae : a ≠ .empty := fun h => hx (va.1 h)
    by_cases hy : ym = .void
    · subst hy
      have : b = .empty := vb.2 rfl
      subst this
      rcases transfer_exact inv hk hl hx ha with ⟨s', d', m', b', e, h1, h2, h3, hcn, -⟩ | ⟨m', e, h⟩ | ⟨m', e, h⟩
      · refine .inl (key (y' := ⟨xm, d'⟩) (x' := ⟨.void, .null⟩) (m' := m') (b' := b') (a' := .empty) ?_ ?_ rfl h2 h3
          (hcn.of_eq (by simp [swapMoves, hae]) rfl))
        · simp [swap, noexcept, hx, bind, M.bind, e, pure, M.pure]
        · simp [swapContent, hae, h1, Out.bind, Out.sealed]
      · exact .inr ⟨m', by simp [swap, noexcept, hx, bind, M.bind, e], by simp [swapContent, hae, h, Out.bind, Out.sealed]⟩
      · exact .inr ⟨m', by simp [swap, noexcept, hx, bind, M.bind, e], by simp [swapContent, hae, h, Out.bind, Out.sealed]⟩
    · have hbe : b ≠ .empty := fun h => hy (vb.1 h)
      have inv0 : Inv P (more env (some ⟨.void, .raw⟩)) m := more_inv .void (by simp) inv
      rcases transfer_exact (k := some k) (l := none) inv0 hk rfl hx ha with
        ⟨s1, d1, m1, a1, e1, q1, v1, n1, k1, i1, c1⟩ | ⟨m1, e1, q1⟩ | ⟨m1, e1, q1⟩
      · rw [more_upd, more_upd_none] at i1
        have hb1 : content m1 ⟨ym, yc⟩ = some b := by
          rw [c1 (some l) _ ⟨by simpa using Ne.symm kl, by simp⟩ hl, hb]
        rcases transfer_exact (k := some l) (l := some k) (src := yc) (dst := s1) i1 (by simp [more, upd, Ne.symm kl, hl])
            (by simp [more, upd]) hy hb1 with ⟨s2, d2, m2, b2, e2, q2, v2, n2, k2, i2, c2⟩ | ⟨m2, e2, q2⟩ | ⟨m2, e2, q2⟩
        · rw [more_upd, more_upd] at i2
          have ha2 : content m2 ⟨xm, d1⟩ = some a1 := by
            rw [c2 none _ ⟨by simp, by simp⟩ rfl, v1]
          rcases transfer_exact (k := none) (l := some l) (src := d1) (dst := s2) i2 rfl (by simp [more, upd, Ne.symm kl]) hx ha2 with
            ⟨s3, d3, m3, a3, e3, q3, v3, n3, k3, i3, c3⟩ | ⟨m3, e3, q3⟩ | ⟨m3, e3, q3⟩
          · refine .inl (key (x' := ⟨ym, d2⟩) (y' := ⟨xm, d3⟩) (m' := m3) (a' := b2) (b' := a3) ?_ ?_ ?_ v3 (by rw [n3, n2, n1])
              (((k1.trans k2).trans k3).of_eq (by simp only [swapMoves, hae, hbe, if_false, moveContent_inside q1]; omega) rfl))
            · simp [swap, noexcept, hx, hy, bind, M.bind, e1, e2, e3, pure, M.pure]
            · simp [swapContent, hae, hbe, q1, q2, q3, Out.bind, Out.sealed]
            · rw [c3 (some k) _ ⟨by simp, by simpa using kl⟩ (by simp [more, upd]), v2]
          · exact .inr ⟨m3, by simp [swap, noexcept, hx, hy, bind, M.bind, e1, e2, e3],
              by simp [swapContent, hae, hbe, q1, q2, q3, Out.bind, Out.sealed]⟩
          · exact .inr ⟨m3, by simp [swap, noexcept, hx, hy, bind, M.bind, e1, e2, e3],
              by simp [swapContent, hae, hbe, q1, q2, q3, Out.bind, Out.sealed]⟩
        · exact .inr ⟨m2, by simp [swap, noexcept, hx, hy, bind, M.bind, e1, e2],
            by simp [swapContent, hae, hbe, q1, q2, Out.bind, Out.sealed]⟩
        · exact .inr ⟨m2, by simp [swap, noexcept, hx, hy, bind, M.bind, e1, e2],
            by simp [swapContent, hae, hbe, q1, q2, Out.bind, Out.sealed]⟩
      · exact .inr ⟨m1, by simp [swap, noexcept, hx, hy, bind, M.bind, e1],
          by simp [swapContent, hae, hbe, q1, Out.bind, Out.sealed]⟩
      · exact .inr ⟨m1, by simp [swap, noexcept, hx, hy, bind, M.bind, e1],
          by simp [swapContent, hae, hbe, q1, Out.bind, Out.sealed]⟩

/-- an object in the buffer is replaced by a new one -/
theorem Inv.renew {P : Prog} {env : K → Option Var} {m : Mem} (inv : Inv P env m) {k : K} {t id v r : Nat}
    (hk : env k = some ⟨.own t, .obj id⟩) (hp : (P.ty t).place = .small) :
    Inv P (upd env k (some ⟨.own t, .obj m.nextObj⟩)) ((m.born t v).set id t r) := by
  obtain ⟨id0, v0, e, ho⟩ := inv.small k t _ hk hp
  cases e
  obtain ⟨h1, h2, h3, h4, h5, h6, h7, h8, h9, h10, h11⟩ := inv
  simp only [Mem.born, Mem.set]
  constructor <;> (try simp only [upd]) <;> grind

theorem Inv.renewed {P : Prog} {env : K → Option Var} {m : Mem} (inv : Inv P env m) {k : K} {t id v r : Nat}
    (hk : env k = some ⟨.own t, .obj id⟩) : Same (fun j => j ≠ k) env m ((m.born t v).set id t r) := by
  obtain ⟨h1, h2, h3, h4, h5, h6, h7, h8, h9, h10, h11⟩ := inv
  intro j x hj hx
  apply content_same
  · rintro t' id' rfl
    simp only [Mem.born, Mem.set, upd]
    grind
  · rintro t' b rfl
    simp only [Mem.born, Mem.set, upd]
    grind

/-- making a variant from an object, exactly -/
theorem stored_exact {P : Prog} {env : K → Option Var} {m : Mem} (inv : Inv P env m) {t : Nat} {o : Out Nat} (ho : o ≠ .terminated)
    (f : M Nat) {q : Bool} (hf : ∀ m', After m m' → f m' = give t o m') (r : Out Cell × Mem)
    (hr : r = noexcept q (match (P.ty t).place with
      | .small => do let id ← f; pure (.obj id)
      | _ => do let b ← allocate P; let id ← f; setBlock b id; pure (.block b)) m) :
    (∃ c m' x, r = (.ok c, m') ∧ stored P t q o m.nextBlock = (.ok x, m'.nextBlock) ∧ content m' ⟨.own t, c⟩ = some x ∧
      Counts m m' (holds x) 0) ∨
    (∃ m', r = (.threw, m') ∧ stored P t q o m.nextBlock = (.threw, m'.nextBlock)) ∨
    (∃ m', r = (.terminated, m') ∧ (stored P t q o m.nextBlock).1 = .terminated) ∨
    (∃ m', r = (.ub, m') ∧ (stored P t q o m.nextBlock).1 = .ub) := by
  subst hr
  by_cases hp : (P.ty t).place = .small
  · have e := hf m (.refl m)
    cases o with
    | ok v =>
      refine .inl ⟨.obj m.nextObj, m.born t v, .val t v, ?_, ?_, ?_⟩
      · simp [hp, noexcept, bind, M.bind, e, give, pure, M.pure]
      · simp [stored, hp, Out.sealed, Out.bind, Mem.born]
      · exact ⟨by simp [content, Mem.born, upd], rfl, rfl⟩
    | threw =>
      cases q
      · exact .inr (.inl ⟨m, by simp [hp, noexcept, bind, M.bind, e, give], by simp [stored, hp, Out.sealed, Out.bind]⟩)
      · exact .inr (.inr (.inl ⟨m, by simp [hp, noexcept, bind, M.bind, e, give], by simp [stored, hp, Out.sealed, Out.bind]⟩))
    | terminated => exact absurd rfl ho
    | ub => exact .inr (.inr (.inr ⟨m, by simp [hp, noexcept, bind, M.bind, e, give], by simp [stored, hp, Out.sealed, Out.bind]⟩))
  · have em : (match (P.ty t).place with
      | .small => (do let id ← f; pure (.obj id) : M Cell)
      | _ => do let b ← allocate P; let id ← f; setBlock b id; pure (.block b)) =
        (do let b ← allocate P; let id ← f; setBlock b id; pure (.block b) : M Cell) := by
      cases h : (P.ty t).place <;> simp_all
    rw [em]
    rcases allocate_cases P m with ⟨hoom, ea⟩ | ⟨hoom, ea⟩
    · cases q
      · exact .inr (.inl ⟨{ m with nextBlock := m.nextBlock + 1 }, by simp [noexcept, bind, M.bind, ea],
          by simp [stored, hp, hoom, Out.sealed]⟩)
      · exact .inr (.inr (.inl ⟨{ m with nextBlock := m.nextBlock + 1 }, by simp [noexcept, bind, M.bind, ea],
          by simp [stored, hp, hoom, Out.sealed]⟩))
    · have e := hf m.alloc inv.after
      cases o with
      | ok v =>
        refine .inl ⟨.block m.nextBlock, m.heap t v, .val t v, ?_, ?_, ?_⟩
        · have := heap_run (m1 := m.alloc) (t := t) (v' := v) f ea (by rw [e]; rfl) rfl
          simp only [noexcept, this]
        · simp [stored, hp, hoom, Out.sealed, Out.bind, Mem.heap, Mem.alloc, Mem.born]
        · exact ⟨by simp [content, Mem.heap, Mem.alloc, Mem.born, upd], rfl, rfl⟩
      | threw =>
        cases q
        · exact .inr (.inl ⟨m.alloc, by simp [noexcept, bind, M.bind, ea, e, give],
            by simp [stored, hp, hoom, Out.sealed, Out.bind, Mem.alloc]⟩)
        · exact .inr (.inr (.inl ⟨m.alloc, by simp [noexcept, bind, M.bind, ea, e, give],
            by simp [stored, hp, hoom, Out.sealed, Out.bind]⟩))
      | terminated => exact absurd rfl ho
      | ub => exact .inr (.inr (.inr ⟨m.alloc, by simp [noexcept, bind, M.bind, ea, e, give],
          by simp [stored, hp, hoom, Out.sealed, Out.bind]⟩))

end

/-- a step that makes variant `k`, exactly -/
def SetsTo (P : Prog) (s : State) (k : Option Nat) (a : Out Content × Nat) (r : Out Unit × State) : Prop :=
  (∃ v m' x, r = (.ok (), ⟨upd s.env k (some v), m'⟩) ∧ a = (.ok x, m'.nextBlock) ∧ Good P ⟨upd s.env k (some v), m'⟩ ∧
    see ⟨upd s.env k (some v), m'⟩ = upd (see s) k (some x) ∧ Counts s.mem m' (holds x) 0) ∨
  (∃ m', r = (.threw, ⟨s.env, m'⟩) ∧ a = (.threw, m'.nextBlock) ∧ Lost s.mem m') ∨
  (∃ s', r = (.terminated, s') ∧ a.1 = .terminated) ∨
  (∃ s', r = (.ub, s') ∧ a.1 = .ub)

theorem SetsTo.of_stored {P : Prog} {s : State} {k : Option Nat} {t : Nat} {c : Option Content} {f : M Cell} {a : Out Content × Nat}
    (h : Makes P s.env k s.mem t c (f s.mem))
    (h' : (∃ c m' x, f s.mem = (.ok c, m') ∧ a = (.ok x, m'.nextBlock) ∧ content m' ⟨.own t, c⟩ = some x ∧
        Counts s.mem m' (holds x) 0) ∨
      (∃ m', f s.mem = (.threw, m') ∧ a = (.threw, m'.nextBlock)) ∨
      (∃ m', f s.mem = (.terminated, m') ∧ a.1 = .terminated) ∨
      (∃ m', f s.mem = (.ub, m') ∧ a.1 = .ub)) :
    SetsTo P s k a (lift f (fun c => put k (some ⟨.own t, c⟩)) s) := by
  unfold lift
  rcases h' with ⟨c, m', x, e, h1, h2, hcn⟩ | ⟨m', e, h1⟩ | ⟨m', e, h1⟩ | ⟨m', e, h1⟩
  · rcases h with ⟨c', m'', e', i, -, -, sm, -⟩ | ⟨m'', e', -⟩ | ⟨-, m'', e'⟩ | ⟨-, m'', e'⟩
    · rw [e] at e'; cases e'
      rw [e]
      exact .inl ⟨⟨.own t, c⟩, m', x, rfl, h1, i, see_upd (fun j z _ => sm j z trivial) h2, hcn⟩
    all_goals (rw [e] at e'; cases e')
  · rcases h with ⟨c', m'', e', i, -, -, sm, -⟩ | ⟨m'', e', l, -⟩ | ⟨-, m'', e'⟩ | ⟨-, m'', e'⟩
    · rw [e] at e'; cases e'
    · rw [e] at e'; cases e'
      rw [e]
      exact .inr (.inl ⟨m', rfl, h1, l⟩)
    all_goals (rw [e] at e'; cases e')
  · rw [e]; exact .inr (.inr (.inl ⟨_, rfl, h1⟩))
  · rw [e]; exact .inr (.inr (.inr ⟨_, rfl, h1⟩))

theorem newEmpty_to {P : Prog} {s : State} (g : Good P s) {k : Option Nat} (hk : Loose (s.env k)) :
    SetsTo P s k (.ok .empty, s.mem.nextBlock) (newEmpty k s) :=
  .inl ⟨fresh, s.mem, _, rfl, rfl, Inv.reset g hk .void (by simp [fresh]), see_upd (fun _ _ _ _ => rfl) rfl, .same⟩

theorem newRef_to {P : Prog} {s : State} (g : Good P s) {k : Option Nat} (hk : Loose (s.env k)) (t a : Nat) :
    SetsTo P s k (.ok (.ref t a), s.mem.nextBlock) (newRef k t a s) :=
  .inl ⟨_, s.mem, _, rfl, rfl, Inv.reset g hk (by simp [Loose]) (by rintro t c h; cases h; exact ⟨_, rfl⟩),
    see_upd (fun _ _ _ _ => rfl) rfl, .same⟩

theorem newValue_to {P : Prog} {s : State} (g : Good P s) {k : Option Nat} (hk : Loose (s.env k)) {t v : Nat} {r : Bool}
    (hs : storable P t r = true) : SetsTo P s k (fromValue P t v r s.mem.nextBlock) (newValue P k t v r s) := by
  have : newValue P k t v r s =
      lift (if r then fMoveConstruct P t v else fCopyConstruct P t v) (fun c => put k (some ⟨.own t, c⟩)) s := by
    unfold newValue
    exact if_pos hs
  rw [this]
  cases r
  · exact .of_stored (fCopyConstruct_makes g t v hk) (stored_exact g copied_back _ (fun m' _ => copyVal_is P t v m') _ rfl)
  · exact .of_stored (fMoveConstruct_makes g t v hk) (stored_exact g moved_back _ (fun m' _ => moveNew_is P t v m') _ rfl)

theorem newCopy_to {P : Prog} {s : State} (g : Good P s) {k l : Option Nat} (hk : Loose (s.env k)) {b : Content}
    (hl : see s l = some b) : SetsTo P s k (copyContent P b s.mem.nextBlock) (newCopy P k l s) := by
  obtain ⟨y, hy, hb⟩ := Option.bind_eq_some_iff.1 hl
  unfold newCopy
  rw [hy]
  dsimp only
  obtain ⟨m, c⟩ := y
  cases m with
  | void => cases hb; exact newEmpty_to g hk
  | ref t =>
    obtain ⟨a, rfl⟩ := Inv.refs g l t c hy
    cases hb
    exact newRef_to g hk t a
  | own t =>
    obtain ⟨id, v, ho, hc, hloc⟩ := Inv.located g hy
    rw [hc] at hb; cases hb
    have e : lift (copyOf P ⟨.own t, c⟩) (fun v => put k (some v)) s =
        lift (fCopy P (.own t) c .raw) (fun c => put k (some ⟨.own t, c⟩)) s := by
      unfold lift copyOf
      simp only [bind, M.bind, pure, M.pure]
      cases h : fCopy P (.own t) c .raw s.mem with
      | mk o m' => cases o <;> rfl
    rw [e]
    refine .of_stored (fCopy_makes g hk hy) (stored_exact g copied_back _ (fun m' h => ?_) _ rfl)
    rw [show copyFrom P t c m' = copyVal P t v m' by simp [copyFrom, bind, M.bind, hloc m' h.2, copyObj, h.1, ho]]
    exact copyVal_is P t v m'


theorem see_upd2 {s : State} {k l : Option Nat} {v w : Var} {m' : Mem} {x y : Content} (kl : k ≠ l)
    (h : Same (fun j => j ≠ k ∧ j ≠ l) s.env s.mem m') (hx : content m' v = some x) (hy : content m' w = some y) :
    see ⟨upd (upd s.env k (some v)) l (some w), m'⟩ = upd (upd (see s) k (some x)) l (some y) := by
  funext j
  by_cases hl : j = l
  · subst hl; simp [see, upd, hy]
  · by_cases hj : j = k
    · subst hj; simp [see, upd, hx, kl]
    · simp only [see, upd_ne _ _ hj, upd_ne _ _ hl]
      cases e : s.env j with
      | none => rfl
      | some z => exact h j z ⟨hj, hl⟩ e

theorem doSwap_exact {P : Prog} {s : State} (g : Good P s) {k l : Option Nat} {a b : Content} (kl : k ≠ l)
    (ha : see s k = some a) (hb : see s l = some b) :
    (∃ x' y' m' a' b', doSwap P k l s = (.ok (), ⟨upd (upd s.env k (some x')) l (some y'), m'⟩) ∧
      swapContent P a b = .ok (a', b') ∧ m'.nextBlock = s.mem.nextBlock ∧ Counts s.mem m' (swapMoves P a b) 0 ∧
      Good P ⟨upd (upd s.env k (some x')) l (some y'), m'⟩ ∧
      see ⟨upd (upd s.env k (some x')) l (some y'), m'⟩ = upd (upd (see s) k (some a')) l (some b')) ∨
    (∃ s', doSwap P k l s = (.terminated, s') ∧ swapContent P a b = .terminated) := by
  obtain ⟨x, hx, hxa⟩ := Option.bind_eq_some_iff.1 ha
  obtain ⟨y, hy, hyb⟩ := Option.bind_eq_some_iff.1 hb
  have e0 : doSwap P k l s = lift (VMem.swap P x y) (fun v s => put l (some v.2) (put k (some v.1) s)) s := by
    unfold doSwap
    rw [hx, hy]
    exact if_neg kl
  rw [e0]
  unfold lift
  rcases swap_exact g hx hy kl hxa hyb with ⟨x', y', m', a', b', e, h1, h2, h3, h4, hcn, i, sm⟩ | ⟨m', e, h⟩
  · rw [e]
    exact .inl ⟨x', y', m', a', b', rfl, h1, h4, hcn, i, see_upd2 kl sm h2 h3⟩
  · rw [e]; exact .inr ⟨_, rfl, h⟩

theorem newMove_exact {P : Prog} {s : State} (g : Good P s) {k l : Option Nat} {b : Content} (kl : k ≠ l)
    (hk : Loose (s.env k)) (hb : see s l = some b) :
    (∃ x' y' m' a' b', newMove P k l s = (.ok (), ⟨upd (upd s.env k (some x')) l (some y'), m'⟩) ∧
      swapContent P .empty b = .ok (a', b') ∧ m'.nextBlock = s.mem.nextBlock ∧ Counts s.mem m' (inside P b) 0 ∧
      Good P ⟨upd (upd s.env k (some x')) l (some y'), m'⟩ ∧
      see ⟨upd (upd s.env k (some x')) l (some y'), m'⟩ = upd (upd (see s) k (some a')) l (some b')) ∨
    (∃ s', newMove P k l s = (.terminated, s') ∧ swapContent P .empty b = .terminated) := by
  have e0 : newMove P k l s = doSwap P k l ⟨upd s.env k (some fresh), s.mem⟩ := rfl
  rw [e0]
  have g' : Good P ⟨upd s.env k (some fresh), s.mem⟩ := Inv.reset g hk .void (by simp [fresh])
  have h1 : see ⟨upd s.env k (some fresh), s.mem⟩ = upd (see s) k (some .empty) := see_upd (fun _ _ _ _ => rfl) rfl
  rcases doSwap_exact g' kl (a := .empty) (b := b) (by rw [h1]; simp [upd]) (by rw [h1]; simp [upd, Ne.symm kl, hb]) with
    ⟨x', y', m', a', b', e, h2, h3, hcn, h4, h5⟩ | ⟨s', e, h2⟩
  · rw [h1] at h5
    dsimp only at e h3 h4 h5 hcn
    rw [upd_upd] at e h4 h5 h5
    exact .inl ⟨x', y', m', a', b', e, h2, h3, hcn.of_eq (by simp [swapMoves]) rfl, h4, h5⟩
  · exact .inr ⟨s', e, h2⟩

theorem clear_counts {K : Type} [DecidableEq K] {P : Prog} {env : K → Option Var} {m : Mem} {k : K} {x : Var} {a : Content} (inv : Inv P env m)
    (hk : env k = some x) (ha : content m x = some a) : Counts m (clear P x m).2 0 (holds a) := by
  obtain ⟨g, c⟩ := x
  cases g with
  | void => cases ha; exact .same
  | ref t => obtain ⟨y, rfl⟩ := inv.refs k t c hk; cases ha; exact .same
  | own t =>
    by_cases hp : (P.ty t).place = .small
    · obtain ⟨id, v, rfl, ho⟩ := inv.small k t _ hk hp
      have : a = .val t v := by simpa [content, ho] using ha.symm
      subst this
      simp [clear, fDestroy, hp, bind, M.bind, destroyObj, ho, pure, M.pure, Counts, made, ended, holds]
    · obtain ⟨b, id, v, rfl, hb, ho⟩ := inv.big k t _ hk hp
      have : a = .val t v := by simpa [content, hb, ho] using ha.symm
      subst this
      have h' : (P.ty t).place = .big ∨ (P.ty t).place = .array := by cases h : (P.ty t).place <;> simp_all
      rcases h' with h' | h' <;>
      simp [clear, fDestroy, h', bind, M.bind, locate, inBlock, hb, destroyObj, ho, deallocate, pure, M.pure, Counts, made, ended, holds]

theorem clear_blocks {K : Type} [DecidableEq K] {P : Prog} {env : K → Option Var} {m : Mem} {k : K} {x : Var} (inv : Inv P env m) (hk : env k = some x) :
    (clear P x m).2.nextBlock = m.nextBlock := by
  obtain ⟨g, c⟩ := x
  cases g with
  | void => rfl
  | ref t => rfl
  | own t =>
    by_cases hp : (P.ty t).place = .small
    · obtain ⟨id, v, rfl, ho⟩ := inv.small k t _ hk hp
      simp [clear, fDestroy, hp, bind, M.bind, destroyObj, ho, pure, M.pure]
    · obtain ⟨b, id, v, rfl, hb, ho⟩ := inv.big k t _ hk hp
      have h' : (P.ty t).place = .big ∨ (P.ty t).place = .array := by cases h : (P.ty t).place <;> simp_all
      rcases h' with h' | h' <;>
      simp [clear, fDestroy, h', bind, M.bind, locate, inBlock, hb, destroyObj, ho, deallocate, pure, M.pure]

theorem lift_mem {A : Type} {f : M A} {k : A → State → State} (hk : ∀ a s, (k a s).mem = s.mem) (s : State) :
    (lift f k s).2.mem = (f s.mem).2 := by
  unfold lift
  rcases h : f s.mem with ⟨o, m⟩
  cases o <;> simp [hk]

theorem doDestroy_exact {P : Prog} {s : State} (g : Good P s) {k : Option Nat} {a : Content} (ha : see s k = some a) :
    ∃ m', doDestroy P k s = (.ok (), ⟨upd s.env k none, m'⟩) ∧ Good P ⟨upd s.env k none, m'⟩ ∧
      m'.nextBlock = s.mem.nextBlock ∧ see ⟨upd s.env k none, m'⟩ = upd (see s) k none ∧
      Counts s.mem m' 0 (holds a) := by
  obtain ⟨x, hk, hxa⟩ := Option.bind_eq_some_iff.1 ha
  obtain ⟨m', e, h1, -, -, h2⟩ := doDestroy_fine g hk
  refine ⟨m', e, h1, ?_⟩
  have h3 : doDestroy P k s = lift (VMem.clear P x) (fun _ => put k none) s := by unfold doDestroy; rw [hk]
  have := lift_mem (f := VMem.clear P x) (k := fun _ => put k none) (fun _ _ => rfl) s
  rw [← h3, e] at this
  dsimp only at this
  rw [this]
  exact ⟨clear_blocks g hk, this ▸ h2, clear_counts g hk hxa⟩

theorem doClear_exact {P : Prog} {s : State} (g : Good P s) {k : Option Nat} {a : Content} (ha : see s k = some a) :
    ∃ m', doClear P k s = (.ok (), ⟨upd s.env k (some ⟨.void, .null⟩), m'⟩) ∧ Good P ⟨upd s.env k (some ⟨.void, .null⟩), m'⟩ ∧
      m'.nextBlock = s.mem.nextBlock ∧ see ⟨upd s.env k (some ⟨.void, .null⟩), m'⟩ = upd (see s) k (some .empty) ∧
      Counts s.mem m' 0 (holds a) := by
  obtain ⟨x, hk, hxa⟩ := Option.bind_eq_some_iff.1 ha
  obtain ⟨m', e, h1, -, -, h2⟩ := doClear_fine g hk
  refine ⟨m', e, h1, ?_⟩
  have h3 : doClear P k s = lift (VMem.clear P x) (fun v => put k (some v)) s := by unfold doClear; rw [hk]
  have := lift_mem (f := VMem.clear P x) (k := fun v => put k (some v)) (fun _ _ => rfl) s
  rw [← h3, e] at this
  dsimp only at this
  rw [this]
  exact ⟨clear_blocks g hk, this ▸ h2, clear_counts g hk hxa⟩

/-- a variant swapped with itself -/
theorem swapSelf_exact {P : Prog} {s : State} (g : Good P s) {k : Option Nat} {a : Content} (ha : see s k = some a) :
    (∃ x' m' a', doSwap P k k s = (.ok (), ⟨upd s.env k (some x'), m'⟩) ∧ selfSwap P a = .ok a' ∧
      m'.nextBlock = s.mem.nextBlock ∧ Counts s.mem m' (2 * inside P a) 0 ∧ Good P ⟨upd s.env k (some x'), m'⟩ ∧
      (∀ L, Blk L s.env s.mem → Blk L (upd s.env k (some x')) m') ∧
      see ⟨upd s.env k (some x'), m'⟩ = upd (see s) k (some a')) ∨
    (∃ s', doSwap P k k s = (.terminated, s') ∧ selfSwap P a = .terminated) ∨
    (∃ s', doSwap P k k s = (.ub, s') ∧ selfSwap P a = .ub) := by
  obtain ⟨x, hx, hxa⟩ := Option.bind_eq_some_iff.1 ha
  have e0 : doSwap P k k s = lift (swapSelf P x) (fun v => put k (some v)) s := by
    unfold doSwap
    rw [hx]
    exact if_pos rfl
  rw [e0]
  have same : inside P a = 0 → ∀ o, (∃ x' m' a', lift (fun m => (.ok x, { m with odd := o })) (fun v => put k (some v)) s =
      (.ok (), ⟨upd s.env k (some x'), m'⟩) ∧ Out.ok a = .ok a' ∧
      m'.nextBlock = s.mem.nextBlock ∧ Counts s.mem m' (2 * inside P a) 0 ∧ Good P ⟨upd s.env k (some x'), m'⟩ ∧
      (∀ L, Blk L s.env s.mem → Blk L (upd s.env k (some x')) m') ∧
      see ⟨upd s.env k (some x'), m'⟩ = upd (see s) k (some a')) := by
    intro hin o
    refine ⟨x, { s.mem with odd := o }, a, rfl, rfl, rfl, ⟨by simp [hin], rfl⟩, ?_, ?_, see_upd (fun _ _ _ _ => rfl) hxa⟩
    all_goals
      have : upd s.env k (some x) = s.env := by funext j; unfold upd; grind
      rw [this]
    rotate_left
    · exact fun _ => id
    obtain ⟨h1, h2, h3, h4, h5, h6, h7, h8, h9, h10, h11⟩ := g
    exact ⟨h1, h2, h3, h4, h5, h6, h7, h8, h9, h10, h11⟩
  obtain ⟨gm, c⟩ := x
  cases gm with
  | void => cases hxa; exact .inl (same rfl s.mem.odd)
  | ref t =>
    obtain ⟨y, rfl⟩ := Inv.refs g k t c hx
    cases hxa; exact .inl (same rfl s.mem.odd)
  | own t =>
    by_cases hp : (P.ty t).place = .small
    · obtain ⟨id, v, rfl, ho⟩ := Inv.small g k t _ hx hp
      have : a = .val t v := by simpa [content, ho] using hxa.symm
      subst this
      cases ht : (P.ty t).trivial with
      | false =>
        refine .inr (.inr ⟨s, ?_, by simp [selfSwap, hp, ht]⟩)
        simp [lift, swapSelf, noexcept, hp, ht, M.ub]
      | true =>
        have hna : (P.ty t).place ≠ .array := by rw [hp]; simp
        obtain ⟨r, e⟩ := moveObj_is P ho
        cases hm : moved P t v with
        | ok v' =>
          rw [hm] at e
          dsimp only at e
          have ho' : ((s.mem.born t v').set id t r).objs s.mem.nextObj = some ⟨t, v'⟩ := by
            have := Inv.olt g id _ ho
            simp only [Mem.born, Mem.set, upd]
            rw [if_neg (by omega)]; simp
          obtain ⟨r', e'⟩ := moveObj_is P ho'
          have g1 : Inv P (upd s.env k (some ⟨.own t, .obj s.mem.nextObj⟩)) ((s.mem.born t v').set id t r) := Inv.renew g hx hp
          have s1 : Same (fun j => j ≠ k) s.env s.mem ((s.mem.born t v').set id t r) := Inv.renewed g hx
          cases hm' : moved P t v' with
          | ok v'' =>
            rw [hm'] at e'
            dsimp only at e'
            have g2 := Inv.renew g1 (k := k) (v := v'') (r := r') (upd_same _ _ _) hp
            have s2 := Inv.renewed g1 (k := k) (v := v'') (r := r') (t := t) (upd_same _ _ _)
            rw [upd_upd] at g2
            refine .inl ⟨⟨.own t, .obj ((s.mem.born t v').set id t r).nextObj⟩,
              (((s.mem.born t v').set id t r).born t v'').set s.mem.nextObj t r', .val t v'', ?_, ?_, ?_,
              (Counts.set.trans Counts.set).of_eq (by simp [inside, hp]) rfl, g2, fun L hb => ?_, see_upd (fun j z hj hz => ?_) ?_⟩
            · simp [lift, swapSelf, noexcept, hp, ht, bind, M.bind, e, e', pure, M.pure, put]
            · simp [selfSwap, hp, ht, hm, hm', Out.bind, Out.sealed]
            · rfl
            · refine ⟨hb.1, fun b i e => ?_⟩
              obtain ⟨j, t', hj⟩ := hb.2 b i e
              refine ⟨j, t', ?_⟩
              rw [upd_ne _ _ (by rintro rfl; rw [hx] at hj; cases hj)]
              exact hj
            · rw [s2 j z hj (by rw [upd_ne _ _ hj]; exact hz), s1 j z hj hz]
            · simp only [content, Mem.born, Mem.set, upd]
              simp
          | threw =>
            rw [hm'] at e'
            exact .inr (.inl ⟨⟨s.env, (s.mem.born t v').set id t r⟩, by simp [lift, swapSelf, noexcept, hp, ht, bind, M.bind, e, e'],
              by simp [selfSwap, hp, ht, hm, hm', Out.bind, Out.sealed]⟩)
          | terminated => exact absurd hm' moved_back
          | ub => exact absurd hm' (moved_defined hna)
        | threw =>
          rw [hm] at e
          exact .inr (.inl ⟨s, by simp [lift, swapSelf, noexcept, hp, ht, bind, M.bind, e],
            by simp [selfSwap, hp, ht, hm, Out.bind, Out.sealed]⟩)
        | terminated => exact absurd hm moved_back
        | ub => exact absurd hm (moved_defined hna)
    · obtain ⟨b, id, v, rfl, hb, ho⟩ := Inv.big g k t _ hx hp
      have : a = .val t v := by simpa [content, hb, ho] using hxa.symm
      subst this
      have h' : (P.ty t).place = .big ∨ (P.ty t).place = .array := by cases h : (P.ty t).place <;> simp_all
      have e1 : swapSelf P ⟨.own t, .block b⟩ = fun m => (.ok ⟨.own t, .block b⟩, { m with odd := true }) := by
        funext m
        rcases h' with h' | h' <;> simp [swapSelf, h', noexcept, bind, M.bind, readPtr, pure, M.pure]
      rw [e1]
      have e2 : selfSwap P (.val t v) = .ok (.val t v) := by simp [selfSwap, hp]
      rw [e2]
      exact .inl (same (by simp [inside, hp]) true)

/-- a step of the program, exactly -/
def EndsIn (P : Prog) (s : State) (mk en : Nat) (a : Out Unit × Abs) (r : Out Unit × State) : Prop :=
  (∃ s', r = (.ok (), s') ∧ Good P s' ∧ s'.env none = none ∧ a = (.ok (), ⟨view s', s'.mem.nextBlock⟩) ∧ Counts s.mem s'.mem mk en) ∨
  (∃ m', r = (.threw, ⟨s.env, m'⟩) ∧ a = (.threw, ⟨view s, m'.nextBlock⟩) ∧ Lost s.mem m') ∨
  (∃ s', r = (.terminated, s') ∧ a.1 = .terminated) ∨
  (∃ s', r = (.ub, s') ∧ a.1 = .ub)

/-- the machine's view of a state -/
def abs (s : State) : Abs := ⟨view s, s.mem.nextBlock⟩

theorem view_lost {P : Prog} {s : State} (g : Good P s) {m' : Mem} (h : Lost s.mem m') : view ⟨s.env, m'⟩ = view s := by
  funext x
  unfold view
  dsimp only
  cases e : s.env (some x) with
  | none => rfl
  | some z => exact Inv.same_lost g h _ z trivial e

theorem view_of_see {s : State} {f : Option Nat → Option Content} (h : see s = f) : view s = fun x => f (some x) := by
  rw [← h]; rfl

theorem SetsTo.act {P : Prog} {s : State} (g : Good P s) (h0 : s.env none = none) {x : Nat} {f : Nat → Out Content × Nat}
    {r : Out Unit × State} (h : SetsTo P s (some x) (f s.mem.nextBlock) r) :
    EndsIn P s (match (f s.mem.nextBlock).1 with | .ok c => holds c | _ => 0) 0 ((abs s).act f fun a => upd (view s) x (some a)) r := by
  rcases h with ⟨v, m', c, e, ea, g', hs, hcn⟩ | ⟨m', e, ea, hl⟩ | ⟨s', e, ea⟩ | ⟨s', e, ea⟩
  · refine .inl ⟨_, e, g', by simp [upd, h0], ?_, by rw [ea]; exact hcn⟩
    simp only [Abs.act, abs, ea]
    rw [view_of_see hs]
    simp only [Prod.mk.injEq, Abs.mk.injEq, true_and, and_true]
    funext j; unfold upd; simp [see_some]
  · refine .inr (.inl ⟨_, e, ?_, hl⟩)
    simp only [Abs.act, abs, ea]
  · refine .inr (.inr (.inl ⟨s', e, ?_⟩))
    simp only [Abs.act, abs]
    rcases hf : f s.mem.nextBlock with ⟨o, n⟩
    rw [hf] at ea; dsimp only at ea; subst ea; rfl
  · refine .inr (.inr (.inr ⟨s', e, ?_⟩))
    simp only [Abs.act, abs]
    rcases hf : f s.mem.nextBlock with ⟨o, n⟩
    rw [hf] at ea; dsimp only at ea; subst ea; rfl

/-- the second half of an assignment -/
theorem tail_exact {P : Prog} {s : State} (g : Good P s) {x : Nat} {a b : Content} (hk : see s none = some b) (hl : see s (some x) = some a) :
    (∃ s' q, seq (doSwap P none (some x)) (doDestroy P none) s = (.ok (), s') ∧ Good P s' ∧ s'.env none = none ∧
      swapContent P b a = .ok q ∧ s'.mem.nextBlock = s.mem.nextBlock ∧ Counts s.mem s'.mem (swapMoves P b a) (holds a) ∧
      see s' = upd (upd (see s) (some x) (some q.2)) none none) ∨
    (∃ s', seq (doSwap P none (some x)) (doDestroy P none) s = (.terminated, s') ∧ swapContent P b a = .terminated) := by
  unfold seq
  rcases doSwap_exact g (by simp) hk hl with ⟨x', y', m', a', b', e, h1, h2, hcn, h3, h4⟩ | ⟨s', e, h⟩
  · rw [e]
    obtain ⟨m'', e', g', n', h', hcn'⟩ := doDestroy_exact h3 (k := none) (a := a') (by rw [h4]; simp [upd])
    refine .inl ⟨_, (a', b'), e', g', by simp [upd], h1, n'.trans h2,
      (hcn.trans hcn').of_eq rfl (by rw [show holds a' = holds a from swapContent_holds h1]; omega), ?_⟩
    rw [h', h4]
    funext j
    unfold upd
    grind
  · rw [e]; exact .inr ⟨s', rfl, h⟩

theorem viaTemp_exact {P : Prog} {s : State} (g : Good P s) (h0 : s.env none = none) {mk : Step} {x : Nat} {a : Content}
    {f : Nat → Out Content × Nat} (hx : view s x = some a) (h : SetsTo P s none (f s.mem.nextBlock) (mk s)) :
    EndsIn P s (match (f s.mem.nextBlock).1 with | .ok c => holds c + swapMoves P c a | _ => 0) (holds a)
      ((abs s).act (replace P a f) fun a => upd (view s) x (some a)) (viaTemp P mk x s) := by
  unfold viaTemp
  rcases h with ⟨v, m', c, e, ea, g', hs, hcn⟩ | ⟨m', e, ea, hl⟩ | ⟨s', e, ea⟩ | ⟨s', e, ea⟩
  · have : seq mk (seq (doSwap P none (some x)) (doDestroy P none)) s =
        seq (doSwap P none (some x)) (doDestroy P none) ⟨upd s.env none (some v), m'⟩ := by
      unfold seq; rw [e]
    rw [this]
    rcases tail_exact (x := x) (a := a) (b := c) g' (by rw [hs]; simp [upd]) (by rw [hs]; simp [upd]; exact hx) with
      ⟨s', q, e', g2, h4, hq, n', hcn', hs'⟩ | ⟨s', e', hq⟩
    · refine .inl ⟨s', e', g2, h4, ?_, by rw [ea]; exact (hcn.trans hcn').of_eq rfl (by omega)⟩
      simp only [Abs.act, abs, replace, ea, hq, Out.bind, n']
      rw [view_of_see hs', hs]
      simp only [Prod.mk.injEq, Abs.mk.injEq, true_and, and_true]
      funext j; unfold upd; simp [see_some]
    · exact .inr (.inr (.inl ⟨s', e', by simp only [Abs.act, abs, replace, ea, hq, Out.bind]⟩))
  · refine .inr (.inl ⟨m', by unfold seq; rw [e], ?_, hl⟩)
    simp only [Abs.act, abs, replace, ea]
  · refine .inr (.inr (.inl ⟨s', by unfold seq; rw [e], ?_⟩))
    simp only [Abs.act, abs, replace]
    rcases hf : f s.mem.nextBlock with ⟨o, n⟩
    rw [hf] at ea; dsimp only at ea; subst ea; rfl
  · refine .inr (.inr (.inr ⟨s', by unfold seq; rw [e], ?_⟩))
    simp only [Abs.act, abs, replace]
    rcases hf : f s.mem.nextBlock with ⟨o, n⟩
    rw [hf] at ea; dsimp only at ea; subst ea; rfl

theorem EndsIn.nop {P : Prog} {s : State} (g : Good P s) (h0 : s.env none = none) : EndsIn P s 0 0 (.ok (), abs s) (.ok (), s) :=
  .inl ⟨s, rfl, g, h0, rfl, .same⟩

theorem EndsIn.of_counts {P : Prog} {s : State} {mk en mk' en' : Nat} {a : Out Unit × Abs} {r : Out Unit × State}
    (h : EndsIn P s mk en a r) (e : a.1 = .ok () → mk = mk' ∧ en = en') : EndsIn P s mk' en' a r := by
  rcases h with ⟨s', e1, g, h0, ea, hc⟩ | h | h | h
  · obtain ⟨rfl, rfl⟩ := e (by rw [ea])
    exact .inl ⟨s', e1, g, h0, ea, hc⟩
  · exact .inr (.inl h)
  · exact .inr (.inr (.inl h))
  · exact .inr (.inr (.inr h))

theorem EndsIn.out {P : Prog} {s : State} {mk en : Nat} {a : Out Unit × Abs} {r : Out Unit × State} (h : EndsIn P s mk en a r) :
    r.1 = a.1 := by
  rcases h with ⟨s', e, _, _, ea, _⟩ | ⟨s', e, ea, _⟩ | ⟨s', e, ea⟩ | ⟨s', e, ea⟩ <;> rw [e, ea]

theorem Abs.act_ok {A : Type} {s : Abs} {f : Nat → Out A × Nat} {k : A → View} (h : (s.act f k).1 = .ok ()) : ∃ c, (f s.n).1 = .ok c := by
  unfold Abs.act at h
  rcases hf : f s.n with ⟨o, n⟩
  rw [hf] at h
  cases o with
  | ok c => exact ⟨c, rfl⟩
  | _ => cases h

theorem replace_ok {P : Prog} {a c : Content} {f : Nat → Out Content × Nat} {n : Nat} (h : (replace P a f n).1 = .ok c) :
    ∃ b, (f n).1 = .ok b := by
  unfold replace at h
  rcases hf : f n with ⟨o, m⟩
  rw [hf] at h
  cases o with
  | ok b => exact ⟨b, rfl⟩
  | _ => cases h

theorem exec_exact {P : Prog} {s : State} (g : Good P s) (h0 : s.env none = none) (c : Cmd) :
    EndsIn P s (news P (view s) c + moves P (view s) c) (ends P (view s) c) (meant P c (abs s)) (exec P c s) := by
  have lv : ∀ x, isLive s x = (view s x).isSome := fun x => (g.live (some x)).symm
  have dead : ∀ x, view s x = none → Loose (s.env (some x)) := by
    intro x h
    have : isLive s x = false := by rw [lv, h]; rfl
    cases e : s.env (some x) with
    | none => exact .none
    | some v => simp [isLive, e] at this
  have l0 : Loose (s.env none) := by rw [h0]; exact .none
  have gone : ∀ x, view s x = none → s.env (some x) = none := by
    intro x h
    have : isLive s x = false := by rw [lv, h]; rfl
    cases e : s.env (some x) with
    | none => rfl
    | some v => simp [isLive, e] at this
  cases c with
  | empty x =>
    simp only [exec, meant, lv, news, moves, ends]
    cases hx : view s x with
    | some a => simp only [abs, hx]; exact .nop g h0
    | none =>
      simp only [abs, hx]
      exact ((newEmpty_to g (dead x hx)).act (f := fun n => (.ok .empty, n)) g h0)
  | value x t v r =>
    simp only [exec, meant, lv, news, moves, ends]
    cases hx : view s x with
    | some a => simp only [abs, hx]; exact .nop g h0
    | none =>
      simp only [abs, hx]
      cases hs : storable P t r with
      | false =>
        have : newValue P (some x) t v r s = (.ok (), s) := if_neg (by simpa [storable] using hs)
        simp only [Option.isSome_none, Bool.false_eq_true, if_false, this]
        exact .nop g h0
      | true =>
        refine ((newValue_to g (dead x hx) hs).act g h0).of_counts fun hc => ⟨?_, rfl⟩
        obtain ⟨c, hc⟩ := Abs.act_ok hc
        rw [show (fromValue P t v r s.mem.nextBlock).1 = .ok c from hc]
        exact (fromValue_alike hc).holds
  | ref x t a =>
    simp only [exec, meant, lv, news, moves, ends]
    cases hx : view s x with
    | some a => simp only [abs, hx]; exact .nop g h0
    | none =>
      simp only [abs, hx]
      exact ((newRef_to g (dead x hx) t a).act (f := fun n => (.ok (.ref t a), n)) g h0)
  | copy x y =>
    simp only [exec, meant, lv, news, moves, ends]
    cases hx : view s x with
    | some a => simp only [abs, hx]; exact .nop g h0
    | none =>
      cases hy : view s y with
      | none => simp only [abs, hx, hy]; exact .nop g h0
      | some b =>
        simp only [abs, hx, hy]
        refine ((newCopy_to g (dead x hx) hy).act g h0).of_counts fun hc => ⟨?_, rfl⟩
        obtain ⟨c, hc⟩ := Abs.act_ok hc
        rw [show (copyContent P b s.mem.nextBlock).1 = .ok c from hc]
        exact (copyContent_alike hc).holds
  | move x y =>
    simp only [exec, meant, lv, news, moves, ends]
    cases hx : view s x with
    | some a => simp only [abs, hx]; exact .nop g h0
    | none =>
      cases hy : view s y with
      | none => simp only [abs, hx, hy]; exact .nop g h0
      | some b =>
        simp only [abs, hx, hy]
        have xy : (some x) ≠ some y := by rintro h; cases h; simp [hx] at hy
        simp only [Option.isSome_none, Option.isSome_some, Bool.not_true, Bool.or_self, Bool.false_eq_true, if_false]
        rcases newMove_exact g xy (dead x hx) hy with ⟨x', y', m', a', b', e, h1, h2, hcn, h3, h4⟩ | ⟨s', e, h1⟩
        · refine .inl ⟨_, e, h3, by simp [upd, h0], ?_, hcn.of_eq (by simp) rfl⟩
          simp only [Abs.act, still, h1, h2]
          rw [view_of_see h4]
          simp only [Prod.mk.injEq, Abs.mk.injEq, true_and, and_true]
          funext j; unfold upd; simp [see_some]
        · exact .inr (.inr (.inl ⟨s', e, by simp only [Abs.act, still, h1]⟩))
  | assign x y =>
    simp only [exec, meant, lv, news, moves, ends]
    cases hx : view s x with
    | none => simp only [abs, hx]; exact .nop g h0
    | some a =>
      cases hy : view s y with
      | none => simp only [abs, hx, hy]; exact .nop g h0
      | some b =>
        simp only [abs, hx, hy]
        by_cases xy : x = y
        · subst xy; simp; exact .nop g h0
        · simp only [xy]
          refine (viaTemp_exact g h0 hx (newCopy_to g l0 hy)).of_counts fun hc => ⟨?_, rfl⟩
          obtain ⟨c, hc⟩ := Abs.act_ok hc
          obtain ⟨c, hc⟩ := replace_ok hc
          rw [show (copyContent P b s.mem.nextBlock).1 = .ok c from hc]
          simp [(copyContent_alike hc).holds, (copyContent_alike hc).moves]
  | assignMove x y =>
    simp only [exec, meant, lv, news, moves, ends]
    cases hx : view s x with
    | none => simp only [abs, hx]; exact .nop g h0
    | some a =>
      cases hy : view s y with
      | none => simp only [abs, hx, hy]; exact .nop g h0
      | some b =>
        simp only [abs, hx, hy]
        by_cases xy : x = y
        · subst xy; simp; exact .nop g h0
        · simp only [xy, Option.isSome_some, Bool.not_true, Bool.or_self, decide_false, Bool.false_eq_true, if_false]
          rcases newMove_exact (k := none) (l := some y) g (by simp) l0 hy with ⟨x', y', m', a', b', e, h1, h2, hcn, h3, h4⟩ | ⟨s', e, h1⟩
          · have e' : viaTemp P (newMove P none (some y)) x s =
                seq (doSwap P none (some x)) (doDestroy P none) ⟨upd (upd s.env none (some x')) (some y) (some y'), m'⟩ := by
              unfold viaTemp
              rw [seq, e]
            rw [e']
            rcases tail_exact (x := x) (a := a) (b := a') h3 (by rw [h4]; simp [upd]) (by rw [h4]; simp [upd, xy]; exact hx) with
              ⟨s', q, e2, g2, h5, hq, n', hcn', hs'⟩ | ⟨s', e2, hq⟩
            · refine .inl ⟨s', e2, g2, h5, ?_, (hcn.trans hcn').of_eq (by simp [(swapContent_alike h1).1.moves]) (by simp)⟩
              simp only [Abs.act, still, h1, hq, Out.bind, n', h2]
              rw [view_of_see hs', h4]
              simp only [Prod.mk.injEq, Abs.mk.injEq, true_and, and_true]
              funext j; unfold upd
              by_cases hj : j = x
              · subst hj; simp [xy]
              · simp [hj, see_some]
            · exact .inr (.inr (.inl ⟨s', e2, by simp only [Abs.act, still, h1, hq, Out.bind]⟩))
          · exact .inr (.inr (.inl ⟨s', by simp [viaTemp, seq, e], by simp only [Abs.act, still, h1, Out.bind]⟩))
  | assignValue x t v r =>
    simp only [exec, meant, lv, news, moves, ends]
    cases hx : view s x with
    | none => simp only [abs, hx]; exact .nop g h0
    | some a =>
      simp only [abs, hx]
      cases hs : storable P t r with
      | false =>
        have : ((P.ty t).copyable || r && (P.ty t).movable) = false := by simpa [storable] using hs
        simp only [this]
        exact .nop g h0
      | true =>
        have : ((P.ty t).copyable || r && (P.ty t).movable) = true := by simpa [storable] using hs
        simp only [this]
        refine (viaTemp_exact g h0 hx (newValue_to g l0 hs)).of_counts fun hc => ⟨?_, rfl⟩
        obtain ⟨c, hc⟩ := Abs.act_ok hc
        obtain ⟨c, hc⟩ := replace_ok hc
        rw [show (fromValue P t v r s.mem.nextBlock).1 = .ok c from hc]
        simp only [(fromValue_alike hc).holds, (fromValue_alike hc).moves]
        rfl
  | assignRef x t b =>
    simp only [exec, meant, lv, news, moves, ends]
    cases hx : view s x with
    | none => simp only [abs, hx]; exact .nop g h0
    | some a =>
      simp only [abs, hx]
      exact (viaTemp_exact (f := still (.ok (.ref t b))) g h0 hx (newRef_to g l0 t b)).of_counts fun _ => ⟨by simp [still, holds], rfl⟩
  | swap x y =>
    simp only [exec, meant, news, moves, ends]
    cases hx : view s x with
    | none =>
      have : doSwap P (some x) (some y) s = (.ok (), s) := by simp [doSwap, gone x hx]
      rw [this]
      simp only [abs, hx]; exact .nop g h0
    | some a =>
      cases hy : view s y with
      | none =>
        have : doSwap P (some x) (some y) s = (.ok (), s) := by simp [doSwap, gone y hy]
        rw [this]
        simp only [abs, hx, hy]; exact .nop g h0
      | some b =>
        simp only [abs, hx, hy]
        by_cases xy : x = y
        · subst xy
          simp only [if_true]
          rcases swapSelf_exact g (k := some x) hx with ⟨x', m', a', e, h1, h2, hcn, h3, -, h4⟩ | ⟨s', e, h1⟩ | ⟨s', e, h1⟩
          · refine .inl ⟨_, e, h3, by simp [upd, h0], ?_, hcn.of_eq (by simp) rfl⟩
            simp only [Abs.act, still, h1, h2]
            rw [view_of_see h4]
            simp only [Prod.mk.injEq, Abs.mk.injEq, true_and, and_true]
            funext j; unfold upd; simp [see_some]
          · exact .inr (.inr (.inl ⟨s', e, by simp only [Abs.act, still, h1]⟩))
          · exact .inr (.inr (.inr ⟨s', e, by simp only [Abs.act, still, h1]⟩))
        · simp only [xy, if_false]
          rcases doSwap_exact g (by simpa using xy) (k := some x) (l := some y) hx hy with
            ⟨x', y', m', a', b', e, h1, h2, hcn, h3, h4⟩ | ⟨s', e, h1⟩
          · refine .inl ⟨_, e, h3, by simp [upd, h0], ?_, hcn.of_eq (by simp) rfl⟩
            simp only [Abs.act, still, h1, h2]
            rw [view_of_see h4]
            simp only [Prod.mk.injEq, Abs.mk.injEq, true_and, and_true]
            funext j; unfold upd; simp [see_some]
          · exact .inr (.inr (.inl ⟨s', e, by simp only [Abs.act, still, h1]⟩))
  | clear x =>
    simp only [exec, meant, news, moves, ends]
    cases hx : view s x with
    | none =>
      have : doClear P (some x) s = (.ok (), s) := by simp [doClear, gone x hx]
      rw [this]
      simp only [abs, hx]; exact .nop g h0
    | some a =>
      obtain ⟨m', e, g', n', h', hcn⟩ := doClear_exact g hx
      refine .inl ⟨_, e, g', by simp [upd, h0], ?_, hcn⟩
      simp only [abs, hx, n']
      rw [view_of_see h']
      simp only [Option.isNone_some, Bool.false_eq_true, if_false, Prod.mk.injEq, Abs.mk.injEq, true_and, and_true]
      funext j; unfold upd; simp [see_some]
  | destroy x =>
    simp only [exec, meant, news, moves, ends]
    cases hx : view s x with
    | none =>
      have : doDestroy P (some x) s = (.ok (), s) := by simp [doDestroy, gone x hx]
      rw [this]
      have e : upd (view s) x none = view s := by funext j; unfold upd; split <;> simp_all
      simp only [abs, e]; exact .nop g h0
    | some a =>
      obtain ⟨m', e, g', n', h', hcn⟩ := doDestroy_exact g hx
      refine .inl ⟨_, e, g', by simp [upd, h0], ?_, hcn⟩
      simp only [abs, n']
      rw [view_of_see h']
      simp only [Prod.mk.injEq, Abs.mk.injEq, true_and, and_true]
      funext j; unfold upd; simp [see_some]

theorem run_exact {P : Prog} (cs : List Cmd) : ∀ {s : State}, Good P s → s.env none = none →
    (∃ s', run P cs s = (.ok (), s') ∧ meaning P cs (abs s) = (.ok (), abs s')) ∨
    (∃ s', run P cs s = (.terminated, s') ∧ (meaning P cs (abs s)).1 = .terminated) ∨
    (∃ s', run P cs s = (.ub, s') ∧ (meaning P cs (abs s)).1 = .ub) := by
  induction cs with
  | nil => intro s _ _; exact .inl ⟨s, rfl, rfl⟩
  | cons c cs ih =>
    intro s g h0
    rcases exec_exact g h0 c with ⟨s', e, g', h', ea, -⟩ | ⟨m', e, ea, hl⟩ | ⟨s', e, ea⟩ | ⟨s', e, ea⟩
    · simp only [run, meaning, e, ea]; exact ih g' h'
    · simp only [run, meaning, e, ea]
      rw [← view_lost g hl]
      exact ih (Inv.lost g hl) h0
    · refine .inr (.inl ⟨s', by simp only [run, e], ?_⟩)
      rcases hm : meant P c (abs s) with ⟨o, q⟩
      rw [hm] at ea; dsimp only at ea; subst ea
      simp only [meaning, hm]
    · refine .inr (.inr ⟨s', by simp only [run, e], ?_⟩)
      rcases hm : meant P c (abs s) with ⟨o, q⟩
      rw [hm] at ea; dsimp only at ea; subst ea
      simp only [meaning, hm]

theorem Good.init (P : Prog) : Good P init := by
  constructor <;> simp [VMem.init]

theorem run_good {P : Prog} (cs : List Cmd) : ∀ {s : State}, Good P s → s.env none = none → (run P cs s).1 = .ok () →
    Good P (run P cs s).2 ∧ (run P cs s).2.env none = none := by
  induction cs with
  | nil => intro s g h _; exact ⟨g, h⟩
  | cons c cs ih =>
    intro s g h0 h
    unfold run at h ⊢
    rcases exec_exact g h0 c with ⟨s', e, g', h', -⟩ | ⟨m', e, -, hl⟩ | ⟨s', e, -⟩ | ⟨s', e, -⟩
    · rw [e] at h ⊢; exact ih g' h' h
    · rw [e] at h ⊢; exact ih (Inv.lost g hl) h0 h
    · rw [e] at h; cases h
    · rw [e] at h; cases h

theorem reach {P : Prog} {cs : List Cmd} (h : (run P cs init).1 = .ok ()) :
    Good P (run P cs init).2 ∧ (run P cs init).2.env none = none := run_good cs (Good.init P) rfl h

theorem plain_cases (c : Cmd) : c.plain = true ∨ ∃ x, c = .swap x x := by
  cases c with
  | swap x y => by_cases h : x = y
                · subst h; exact .inr ⟨x, rfl⟩
                · exact .inl (by simp [Cmd.plain, h])
  | _ => exact .inl rfl

theorem selfSwap_alike {P : Prog} {a a' : Content} (h : selfSwap P a = .ok a') : Alike a' a := by
  cases a with
  | val t v =>
    unfold selfSwap at h
    dsimp only at h
    split at h
    · split at h
      · obtain ⟨v', _, h'⟩ := Out.bind_ok h
        cases h'; exact .val
      · cases h
    · cases h; exact .refl
  | _ => cases h; exact .refl

/-- blocks after a step that succeeded -/
theorem exec_blk {P : Prog} {s s' : State} (g : Good P s) (h0 : s.env none = none) {c : Cmd} (e : exec P c s = (.ok (), s'))
    {L : Nat → Prop} (hb : Blk L s.env s.mem) : Blk L s'.env s'.mem := by
  rcases plain_cases c with hc | ⟨x, rfl⟩
  · rcases exec_ends g h0 c hc with ⟨s'', e', _, _, h, _⟩ | ⟨m', e', _⟩ | ⟨_, _, e'⟩ | ⟨_, _, e'⟩
    · rw [e] at e'; cases e'; exact h L hb
    all_goals rw [e] at e'; cases e'
  · cases hx : s.env (some x) with
    | none =>
      have : exec P (.swap x x) s = (.ok (), s) := by simp [exec, doSwap, hx]
      rw [this] at e; cases e; exact hb
    | some v =>
      have hs : (see s (some x)).isSome := by rw [g.live]; simp [hx]
      obtain ⟨a, ha⟩ := Option.isSome_iff_exists.1 hs
      have e : doSwap P (some x) (some x) s = (.ok (), s') := e
      rcases swapSelf_exact g ha with ⟨x', m', a', e', _, _, _, _, h, _⟩ | ⟨s'', e', _⟩ | ⟨s'', e', _⟩
      · rw [e] at e'; cases e'; exact h L hb
      all_goals rw [e] at e'; cases e'

theorem upd_self {A : Type} [DecidableEq A] {B : Type} {σ : A → B} {x : A} {b : B} (h : σ x = b) : upd σ x b = σ := by
  funext y; unfold upd; split
  · subst_vars; rfl
  · rfl

theorem Faithful.moved {P : Prog} (hf : Faithful P) {t v v' : Nat} (h : moved P t v = .ok v') : v' = v := by
  unfold VMem.moved at h
  have cp : copied P t v = .ok v' → v' = v := by
    intro h
    unfold copied at h
    split at h
    · cases h
    · split at h
      · cases h
      · split at h
        · cases h
        · rename_i e; cases h; exact (hf t v).1 _ e
  split at h
  · split at h
    · cases h
    · split at h
      · cases h
      · rename_i e; cases h; exact (hf t v).2 _ _ e
  · exact cp h

theorem Faithful.selfSwap {P : Prog} (hf : Faithful P) {a a' : Content} (h : selfSwap P a = .ok a') : a' = a := by
  cases a with
  | val t v =>
    unfold VMem.selfSwap at h
    dsimp only at h
    split at h
    · split at h
      · obtain ⟨v', h1, h'⟩ := Out.bind_ok h
        cases h'
        obtain ⟨w, h2, h3⟩ := Out.bind_ok (Out.sealed_ok h1)
        rw [hf.moved h3, hf.moved h2]
      · cases h
    · cases h; rfl
  | _ => cases h; rfl

/-- a command that succeeds does what it should -/
theorem exec_intended {P : Prog} {s s' : State} (g : Good P s) (h0 : s.env none = none) {c : Cmd} (e : exec P c s = (.ok (), s'))
    (hf : Faithful P) : view s' = intended P c (view s) := by
  rcases plain_cases c with hc | ⟨x, rfl⟩
  · rcases exec_ends g h0 c hc with ⟨s'', e', _, _, _, h⟩ | ⟨m', e', _⟩ | ⟨_, _, e'⟩ | ⟨_, _, e'⟩
    · rw [e] at e'; cases e'
      funext x; exact congrFun (h hf) (some x)
    all_goals rw [e] at e'; cases e'
  · have : intended P (.swap x x) (view s) = view s := by
      unfold intended
      dsimp only
      split
      · rfl
      · rw [upd_self (σ := view s) rfl, upd_self rfl]
    rw [this]
    rcases exec_exact g h0 (.swap x x) with ⟨s'', e', _, _, ea, _⟩ | ⟨m', e', _⟩ | ⟨_, e', _⟩ | ⟨_, e', _⟩
    · rw [e] at e'; cases e'
      simp only [meant, abs] at ea
      cases hx : view s x with
      | none => simp [hx] at ea; exact ea.1.symm
      | some a =>
        simp only [hx, if_true] at ea
        unfold Abs.act at ea
        cases hs : VMem.selfSwap P a with
        | ok a' =>
          simp only [still, hs, Prod.mk.injEq, Abs.mk.injEq, true_and] at ea
          rw [← ea.1, hf.selfSwap hs]
          exact upd_self hx
        | _ => simp [still, hs] at ea
    all_goals rw [e] at e'; cases e'

/-- a command that throws leaves everything, but perhaps a block -/
theorem exec_threw {P : Prog} {s s' : State} (g : Good P s) (h0 : s.env none = none) {c : Cmd} (e : exec P c s = (.threw, s')) :
    s'.env = s.env ∧ Lost s.mem s'.mem ∧ ((∀ t, (P.ty t).place = .small) → s' = s) := by
  rcases plain_cases c with hc | ⟨x, rfl⟩
  · rcases exec_ends g h0 c hc with ⟨s'', e', _⟩ | ⟨m', e', h, h'⟩ | ⟨_, _, e'⟩ | ⟨_, _, e'⟩
    · rw [e] at e'; cases e'
    · rw [e] at e'; cases e'; exact ⟨rfl, h, fun a => by rw [h' a]⟩
    all_goals rw [e] at e'; cases e'
  · cases hx : s.env (some x) with
    | none =>
      have : exec P (.swap x x) s = (.ok (), s) := by simp [exec, doSwap, hx]
      rw [this] at e; cases e
    | some v =>
      have hs : (see s (some x)).isSome := by rw [g.live]; simp [hx]
      obtain ⟨a, ha⟩ := Option.isSome_iff_exists.1 hs
      have e : doSwap P (some x) (some x) s = (.threw, s') := e
      rcases swapSelf_exact g ha with ⟨x', m', a', e', _⟩ | ⟨s'', e', _⟩ | ⟨s'', e', _⟩ <;> rw [e] at e' <;> cases e'

theorem Calm.moved {P : Prog} (h : Calm P) {t v : Nat} (hp : (P.ty t).place = .small) : ∃ v', moved P t v = .ok v' := by
  have := h.1 t v hp
  have hb : brokenArray P t = false := by simp [brokenArray, hp]
  unfold VMem.moved copied
  rw [hb]
  cases hm : (P.ty t).movable
  · simp only [hm, Bool.false_eq_true, if_false] at this
    obtain ⟨w, hw⟩ := Option.isSome_iff_exists.1 this.2
    simp [this.1, hw]
  · simp only [hm, if_true] at this
    obtain ⟨w, hw⟩ := Option.isSome_iff_exists.1 this
    simp [hw]

theorem exec_terminated {P : Prog} {s : State} (g : Good P s) (h0 : s.env none = none) {c : Cmd} (h : Calm P) :
    (exec P c s).1 ≠ .terminated := by
  intro e
  rcases plain_cases c with hc | ⟨x, rfl⟩
  · rcases exec_ends g h0 c hc with ⟨s'', e', _⟩ | ⟨m', e', _⟩ | ⟨h', _⟩ | ⟨_, _, e'⟩
    · rw [e'] at e; cases e
    · rw [e'] at e; cases e
    · exact h' h
    · rw [e'] at e; cases e
  · rw [(exec_exact g h0 _).out] at e
    simp only [meant, abs] at e
    cases hx : view s x with
    | none => simp [hx] at e
    | some a =>
      simp only [hx, if_true, Abs.act, still] at e
      have : VMem.selfSwap P a ≠ .terminated := by
        cases a with
        | val t v =>
          unfold VMem.selfSwap
          dsimp only
          split
          · rename_i hp
            split
            · obtain ⟨v', h1⟩ := h.moved (v := v) hp
              obtain ⟨v'', h2⟩ := h.moved (v := v') hp
              simp [h1, h2, Out.bind, Out.sealed]
            · simp
          · simp
        | _ => simp [VMem.selfSwap]
      cases hs : VMem.selfSwap P a <;> simp_all

/-! ### Counting -/

theorem objects_upd {σ : View} {x : Nat} {o : Option Content} {N : Nat} (h : x < N) :
    objects (upd σ x o) N + ((σ x).map holds).getD 0 = objects σ N + (o.map holds).getD 0 := by
  have out : ∀ M, M ≤ x → objects (upd σ x o) M = objects σ M := by
    intro M
    induction M with
    | zero => intro _; rfl
    | succ M ih =>
      intro hM
      have : M ≠ x := by omega
      simp only [objects, ih (by omega), upd, this, if_false]
  induction N with
  | zero => omega
  | succ N ih =>
    by_cases e : x = N
    · subst e
      simp only [objects, out x (Nat.le_refl _), upd, if_true]
      omega
    · have := ih (by omega)
      have : N ≠ x := fun h => e h.symm
      simp only [objects, upd, this, if_false] at *
      omega

theorem act_inv {A : Type} {s s' : Abs} {f : Nat → Out A × Nat} {k : A → View} (h : s.act f k = (.ok (), s')) :
    ∃ a, (f s.n).1 = .ok a ∧ s'.σ = k a := by
  unfold Abs.act at h
  rcases hf : f s.n with ⟨o, n⟩
  rw [hf] at h
  cases o with
  | ok a => cases h; exact ⟨a, rfl, rfl⟩
  | _ => cases h

theorem replace_inv {P : Prog} {a c : Content} {f : Nat → Out Content × Nat} {n : Nat} (h : (replace P a f n).1 = .ok c) :
    ∃ b, (f n).1 = .ok b ∧ Alike c b := by
  unfold replace at h
  rcases hf : f n with ⟨o, m⟩
  rw [hf] at h
  cases o with
  | ok b =>
    obtain ⟨q, h1, h2⟩ := Out.bind_ok h
    cases h2
    exact ⟨b, rfl, (swapContent_alike h1).2⟩
  | _ => cases h

/-- a command that succeeds changes the number of objects in variants by what it makes and destroys -/
theorem meant_objects {P : Prog} {c : Cmd} {s s' : Abs} {N : Nat} (hN : ∀ x ∈ c.names, x < N) (h : meant P c s = (.ok (), s')) :
    objects s'.σ N + ends P s.σ c = objects s.σ N + news P s.σ c := by
  have one : ∀ {x : Nat} {o : Option Content}, x < N → objects (upd s.σ x o) N + ((s.σ x).map holds).getD 0 =
    objects s.σ N + (o.map holds).getD 0 := fun h => objects_upd h
  have two : ∀ {x y : Nat} {a b a' b' : Content}, x < N → y < N → x ≠ y → s.σ x = some a → s.σ y = some b →
      objects (upd (upd s.σ x (some a')) y (some b')) N + (holds a + holds b) = objects s.σ N + (holds a' + holds b') := by
    intro x y a b a' b' hx hy xy ea eb
    have h1 := one (o := some a') hx
    have h2 := objects_upd (σ := upd s.σ x (some a')) (o := some b') hy
    have : upd s.σ x (some a') y = some b := by simp [upd, Ne.symm xy, eb]
    rw [this] at h2
    simp [ea] at h1 h2
    omega
  cases c with
  | empty x =>
    have hx := hN x (by simp [Cmd.names])
    simp only [meant] at h
    cases e : s.σ x with
    | none => simp [e] at h; subst h; have := one (o := some .empty) hx; simp [e, holds, ends, news] at this ⊢; omega
    | some a => simp [e] at h; subst h; simp [ends, news]
  | ref x t a =>
    have hx := hN x (by simp [Cmd.names])
    simp only [meant] at h
    cases e : s.σ x with
    | none => simp [e] at h; subst h; have := one (o := some (.ref t a)) hx; simp [e, holds, ends, news] at this ⊢; omega
    | some a => simp [e] at h; subst h; simp [ends, news]
  | clear x =>
    have hx := hN x (by simp [Cmd.names])
    simp only [meant] at h
    cases e : s.σ x with
    | some a => simp [e] at h; subst h; have := one (o := some .empty) hx; simp [e, holds, ends, news] at this ⊢; omega
    | none => simp [e] at h; subst h; simp [ends, news, e]
  | destroy x =>
    have hx := hN x (by simp [Cmd.names])
    simp only [meant] at h
    cases h
    have := one (o := none) hx
    cases e : s.σ x <;> simp [e, ends, news] at this ⊢ <;> omega
  | value x t v r =>
    have hx := hN x (by simp [Cmd.names])
    simp only [meant] at h
    split at h
    · rename_i hc
      cases h
      simp only [ends, news]
      cases e : s.σ x <;> simp_all
    · rename_i hc
      obtain ⟨a, ha, hs⟩ := act_inv h
      rw [hs]
      have := one (o := some a) hx
      simp only [Option.map_some, Option.getD_some, (fromValue_alike ha).holds] at this
      cases e : s.σ x <;> simp_all [ends, news, holds]
  | copy x y =>
    have hx := hN x (by simp [Cmd.names])
    simp only [meant] at h
    cases ex : s.σ x with
    | some a => simp [ex] at h; subst h; simp [ends, news, ex]
    | none =>
      cases ey : s.σ y with
      | none => simp [ex, ey] at h; subst h; simp [ends, news, ex, ey]
      | some b =>
        simp only [ex, ey] at h
        obtain ⟨a, ha, hs⟩ := act_inv h
        rw [hs]
        have := one (o := some a) hx
        simp only [Option.map_some, Option.getD_some, (copyContent_alike ha).holds, ex] at this
        simpa [ends, news, ex, ey] using this
  | move x y =>
    have hx := hN x (by simp [Cmd.names])
    have hy := hN y (by simp [Cmd.names])
    simp only [meant] at h
    cases ex : s.σ x with
    | some a => simp [ex] at h; subst h; simp [ends, news]
    | none =>
      cases ey : s.σ y with
      | none => simp [ex, ey] at h; subst h; simp [ends, news]
      | some b =>
        simp only [ex, ey] at h
        obtain ⟨a, ha, hs⟩ := act_inv h
        rw [hs]
        have xy : y ≠ x := by intro e; subst e; rw [ex] at ey; cases ey
        obtain ⟨h1, h2⟩ := swapContent_alike (P := P) ha
        have h3 := one (o := some a.1) hx
        have h4 := objects_upd (σ := upd s.σ x (some a.1)) (o := some a.2) hy
        have : upd s.σ x (some a.1) y = some b := by simp [upd, xy, ey]
        rw [this] at h4
        simp [ex, h1.holds, h2.holds] at h3 h4
        have he : holds .empty = 0 := rfl
        simp [ends, news]
        omega
  | assign x y =>
    have hx := hN x (by simp [Cmd.names])
    simp only [meant] at h
    cases ex : s.σ x with
    | none => simp [ex] at h; subst h; simp [ends, news, ex]
    | some a =>
      cases ey : s.σ y with
      | none => simp [ex, ey] at h; subst h; simp [ends, news, ex, ey]
      | some b =>
        simp only [ex, ey] at h
        split at h
        · rename_i xy; cases h; simp [ends, news, ex, ey, xy]
        · rename_i xy
          obtain ⟨c, hc, hs⟩ := act_inv h
          obtain ⟨d, hd, hcd⟩ := replace_inv hc
          rw [hs]
          have := one (o := some c) hx
          simp only [Option.map_some, Option.getD_some, hcd.holds, (copyContent_alike hd).holds, ex] at this
          simpa [ends, news, ex, ey, xy] using this
  | assignMove x y =>
    have hx := hN x (by simp [Cmd.names])
    have hy := hN y (by simp [Cmd.names])
    simp only [meant] at h
    cases ex : s.σ x with
    | none => simp [ex] at h; subst h; simp [ends, news, ex]
    | some a =>
      cases ey : s.σ y with
      | none => simp [ex, ey] at h; subst h; simp [ends, news, ex, ey]
      | some b =>
        simp only [ex, ey] at h
        split at h
        · rename_i xy; cases h; simp [ends, news, ex, ey, xy]
        · rename_i xy
          obtain ⟨r, hr, hs⟩ := act_inv h
          obtain ⟨p, hp, hr⟩ := Out.bind_ok (show ((swapContent P .empty b).bind _) = .ok r from hr)
          obtain ⟨q, hq, hr⟩ := Out.bind_ok hr
          cases hr
          obtain ⟨h1, h2⟩ := swapContent_alike hp
          obtain ⟨h3, h4⟩ := swapContent_alike hq
          rw [hs]
          have := two (a' := q.2) (b' := p.2) hx hy xy ex ey
          simp only [h4.holds, h1.holds, h2.holds] at this
          simp [ends, news, ex, ey, xy, holds] at this ⊢
          omega
  | assignValue x t v r =>
    have hx := hN x (by simp [Cmd.names])
    simp only [meant] at h
    cases ex : s.σ x with
    | none => simp [ex] at h; subst h; simp [ends, news, ex]
    | some a =>
      simp only [ex] at h
      split at h
      · rename_i hr; cases h; simp at hr; simp [ends, news, ex, hr]
      · rename_i hr
        obtain ⟨c, hc, hs⟩ := act_inv h
        obtain ⟨d, hd, hcd⟩ := replace_inv hc
        rw [hs]
        have := one (o := some c) hx
        simp only [Option.map_some, Option.getD_some, hcd.holds, (fromValue_alike hd).holds, ex] at this
        simp at hr
        simpa [ends, news, ex, hr, holds] using this
  | assignRef x t b =>
    have hx := hN x (by simp [Cmd.names])
    simp only [meant] at h
    cases ex : s.σ x with
    | none => simp [ex] at h; subst h; simp [ends, news, ex]
    | some a =>
      simp only [ex] at h
      obtain ⟨c, hc, hs⟩ := act_inv h
      obtain ⟨d, hd, hcd⟩ := replace_inv hc
      cases hd
      rw [hs]
      have := one (o := some c) hx
      simp only [Option.map_some, Option.getD_some, hcd.holds, ex] at this
      simpa [ends, news, ex, holds] using this
  | swap x y =>
    have hx := hN x (by simp [Cmd.names])
    have hy := hN y (by simp [Cmd.names])
    simp only [meant] at h
    cases ex : s.σ x with
    | none => simp [ex] at h; subst h; simp [ends, news]
    | some a =>
      cases ey : s.σ y with
      | none => simp [ex, ey] at h; subst h; simp [ends, news]
      | some b =>
        simp only [ex, ey] at h
        split at h
        · rename_i xy
          obtain ⟨c, hc, hs⟩ := act_inv h
          rw [hs]
          have := one (o := some c) hx
          simp only [Option.map_some, Option.getD_some, (selfSwap_alike (P := P) hc).holds, ex] at this
          simp [ends, news]
          omega
        · rename_i xy
          obtain ⟨r, hr, hs⟩ := act_inv h
          obtain ⟨h1, h2⟩ := swapContent_alike (P := P) hr
          rw [hs]
          have := two (a' := r.1) (b' := r.2) hx hy xy ex ey
          simp only [h1.holds, h2.holds] at this
          simp [ends, news]
          omega

theorem run_counts {P : Prog} {N : Nat} (cs : List Cmd) (hN : ∀ c ∈ cs, ∀ x ∈ c.names, x < N) : ∀ {s : State}, Good P s →
    s.env none = none → (run P cs s).1 = .ok () →
    made (run P cs s).2.mem.log + ended s.mem.log + objects (view s) N =
      made s.mem.log + ended (run P cs s).2.mem.log + objects (view (run P cs s).2) N + movesIn P cs (abs s) := by
  induction cs with
  | nil => intro s _ _ _; simp [run, movesIn]
  | cons c cs ih =>
    have ih := fun {s : State} => ih (fun c h => hN c (.tail _ h)) (s := s)
    intro s g h0 h
    unfold run at h ⊢
    rcases exec_exact g h0 c with ⟨s', e, g', h', ea, hc⟩ | ⟨m', e, ea, hl⟩ | ⟨s', e, -⟩ | ⟨s', e, -⟩
    · rw [e] at h ⊢
      have i := ih g' h' h
      have o := meant_objects (hN c (.head _)) ea
      simp only [movesIn, ea]
      unfold Counts at hc
      have e1 : movesIn P cs ⟨view s', s'.mem.nextBlock⟩ = movesIn P cs (abs s') := rfl
      have e2 : (abs s).σ = view s := rfl
      rw [e1, e2]
      rw [e2] at o
      dsimp only at o i ⊢
      omega
    · rw [e] at h ⊢
      have i := ih (s := ⟨s.env, m'⟩) (Inv.lost g hl) h0 h
      have hc := Counts.lost hl
      simp only [movesIn, ea]
      have e1 : movesIn P cs ⟨view s, m'.nextBlock⟩ = movesIn P cs (abs ⟨s.env, m'⟩) := by rw [abs, view_lost g hl]
      rw [e1]
      rw [view_lost g hl] at i
      unfold Counts at hc
      dsimp only at i ⊢
      omega
    · rw [e] at h; cases h
    · rw [e] at h; cases h

/-- the objects alive, as a list -/
def survivors : List Ev → List (Nat × Nat)
  | [] => []
  | .ctor id t :: l => (id, t) :: survivors l
  | .dtor id t :: l => (survivors l).erase (id, t)
  | _ :: l => survivors l

theorem survivors_spec {l : List Ev} (h : Proper l) :
    (survivors l).Nodup ∧ (∀ id t, (id, t) ∈ survivors l ↔ Alive l id t) ∧ made l = ended l + (survivors l).length := by
  have past : ∀ {l : List Ev}, Proper l → ∀ {id t}, .dtor id t ∈ l → .ctor id t ∈ l := by
    intro l
    induction l with
    | nil => simp
    | cons e l ih => intro h id t hd; cases e <;> simp only [Proper, List.mem_cons, reduceCtorEq, false_or, Ev.dtor.injEq, Ev.ctor.injEq] at h hd ⊢ <;> grind
  induction l with
  | nil => simp [survivors, Alive, made, ended]
  | cons e l ih =>
    cases e with
    | alloc b => simpa [survivors, Alive, made, ended] using ih h.2
    | free b => simpa [survivors, Alive, made, ended] using ih h.2.2
    | ctor id t =>
      obtain ⟨h1, h2, h3⟩ := ih h.2
      refine ⟨?_, ?_, ?_⟩
      · refine List.nodup_cons.2 ⟨fun hm => h.1 t ((h2 id t).1 hm).1, h1⟩
      · intro id' t'
        simp only [survivors, List.mem_cons, h2, Alive, Prod.mk.injEq, Ev.ctor.injEq, reduceCtorEq, false_or]
        have := h.1 t'
        have := fun hd => this (past h.2 (id := id) (t := t') hd)
        grind
      · simp only [made, ended, survivors, List.length_cons]; omega
    | dtor id t =>
      obtain ⟨h1, h2, h3⟩ := ih h.2.2
      have hm : (id, t) ∈ survivors l := (h2 id t).2 ⟨h.1, h.2.1⟩
      refine ⟨h1.erase _, ?_, ?_⟩
      · intro id' t'
        simp only [survivors, h1.mem_erase_iff, h2, Alive, List.mem_cons, reduceCtorEq, false_or, Ev.dtor.injEq, ne_eq, Prod.mk.injEq]
        grind
      · simp only [made, ended, survivors, List.length_erase_of_mem hm]
        have := List.length_pos_of_mem hm
        omega

/-! ### Lost blocks -/

/-- blocks that are in use after a command of the program threw and were not before -/
def Dropped (P : Prog) : List Cmd → State → Nat → Prop
  | [], _, _ => False
  | c :: cs, s, b => ((exec P c s).1 = .threw ∧ InUse (exec P c s).2.mem.log b ∧ ¬InUse s.mem.log b) ∨ Dropped P cs (exec P c s).2 b

theorem run_blk {P : Prog} (cs : List Cmd) : ∀ {s : State} {L : Nat → Prop}, Good P s → LogInv s.mem → s.env none = none →
    (run P cs s).1 = .ok () → Blk L s.env s.mem →
    Blk (fun b => L b ∨ Dropped P cs s b) (run P cs s).2.env (run P cs s).2.mem := by
  induction cs with
  | nil => intro s L _ _ _ _ hb; simpa [Dropped, run] using hb
  | cons c cs ih =>
    intro s L g li h0 h hb
    have li' := LogInv.run P [c] li
    unfold run at h ⊢
    rcases exec_exact g h0 c with ⟨s', e, g', h', -⟩ | ⟨m', e, -, hl⟩ | ⟨s', e, -⟩ | ⟨s', e, -⟩
    · simp only [run, e] at li'
      simp only [e, Dropped] at h ⊢
      simpa using ih g' li' h' h (exec_blk g h0 e hb)
    · simp only [run, e] at li'
      simp only [e, Dropped] at h ⊢
      have : Blk (fun b => L b ∨ InUse m'.log b ∧ ¬InUse s.mem.log b) s.env m' := by
        cases hl with
        | nothing => simpa [Blk] using hb
        | tried => simpa [Blk] using hb
        | block =>
          have fresh : s.mem.blocks s.mem.nextBlock = none := by
            cases hn : s.mem.blocks s.mem.nextBlock with
            | none => rfl
            | some o => exact absurd ((li.blocks _).1 (by rw [hn]; rfl)) (fun hu => Nat.lt_irrefl _ (li.blt _ hu.1))
          constructor
          · intro b
            dsimp only
            rw [← hb.1, ← li.blocks, ← li'.blocks]
            simp only [Mem.alloc, upd]
            by_cases hbn : b = s.mem.nextBlock
            · subst hbn; simp [fresh]
            · simp only [hbn, if_false]
              cases s.mem.blocks b <;> simp
          · intro b id hi
            simp only [Mem.alloc, upd] at hi
            split at hi
            · cases hi
            · exact hb.2 b id hi
      have r := ih (s := ⟨s.env, m'⟩) (Inv.lost g hl) li' h0 h this
      simpa [or_assoc] using r
    · rw [e] at h; cases h
    · rw [e] at h; cases h

end Rtti.VMem
