import Verif.Spec.LazyVain
import Verif.Props.LazyReach
/-! Look-ups through base classes whose pending definitions may do anything. -/
set_option autoImplicit false
namespace Rtti.Lazy
open LM Spec Props

/-- a kind of member -/
structure Sort' where
  own : World → Nat → Res (Option Nat)
  Own : World → Nat → Nat → Prop
  spec : ∀ {rank : TypeId → Nat} {w : World}, Reachable rank w → ∀ c r, own w c = .val r → ∀ m, r = some m ↔ Own w c m
  keep : ∀ {w w' : World}, World.Grows w w' → ∀ c m, w.isContainer c = true → Own w c m → Own w' c m

theorem reaches_grows {rank : TypeId → Nat} {w w' : World} (i : World.Inv rank w) (g : World.Grows w w') {c a : Ptr} (hc : w.kind c = some .cls)
    (h : Reaches w c a) : Reaches w' c a ∧ w.kind a = some .cls := by
  induction h with
  | refl => exact ⟨.refl _, hc⟩
  | @step d m b hd _ ih =>
    obtain ⟨x, hx, hq⟩ := (declared_iff _ _ _).1 hd
    have hm : w.kind m = some .cls := ((i.mc _ _ ((find_iff _ _ _).1 hq).2).2).1
    obtain ⟨s, hs⟩ := g.bases d hc
    refine ⟨.step ((declared_iff _ _ _).2 ⟨x, by rw [hs]; exact List.mem_append_left _ hx, ?_⟩) (ih hm).1, (ih hm).2⟩
    exact (find_iff _ _ _).2 ⟨g.valid _ ((find_iff _ _ _).1 hq).1, g.metaClass _ _ ((find_iff _ _ _).1 hq).2⟩

section
variable {rank : TypeId → Nat} {W : World} (M : Sort')

theorem Checks.trans {N : Nat} {a b c : LW} (h : Checks N a b) (h' : Checks N b c) : Checks N a c := by
  induction h' with
  | refl => exact h
  | check p _ ih => exact .check p ih
  | lock i _ ih => exact .lock i ih

theorem Vain.widen {N : Nat} {s0 s s' s'' : LW} {a : Ptr} (h1 : Checks N s0 s) (h2 : Checks N s' s'')
    (h : Vain N M.Own s' s a) : Vain N M.Own s'' s0 a := by
  have key : ∀ {t : LW} {a : Ptr}, Vain N M.Own s' t a → ∀ t0 : LW, Checks N t0 t → Vain N M.Own s'' t0 a := by
    intro t a h
    induction h with
    | mk hm hm' hp hn hb ih =>
      intro t0 h1
      exact .mk (Checks.trans h1 hm) (Checks.trans hm' h2) hp hn fun b hd => ih b hd _ .refl
  exact key h _ h1

structure Fine (rank : TypeId → Nat) (W : World) (s : LW) : Prop where
  kinds : KindsOk s
  pend : PendingOk rank W s
  calm : ∀ p, s.running p = false

theorem checks_look (N : Nat) : QLook (Checks N) where
  refl _ := .refl
  trans := Checks.trans
  iter h := .lock _ (Checks.trans (.lock _ .refl) h)

theorem Checks.fine {N : Nat} {s s' : LW} (h : Checks N s s') (f : Fine rank W s) :
    Fine rank W s' ∧ Ext s.w s'.w ∧ (Ext s'.w W → Reachable rank s.w → Later rank s.w s'.w) := by
  have key : Leads rank W s s' ∧ s'.running = s.running := by
    clear f
    induction h with
    | refl => exact ⟨(leads_look rank W).refl s, rfl⟩
    | check p _ ih => exact ⟨(leads_look rank W).trans ih.1 (leads_check rank W N p _), (keeps_check N p _).running.trans ih.2⟩
    | lock i _ ih => exact ⟨(leads_look rank W).trans ih.1 (Leads.same rank W rfl fun g => g), ih.2⟩
  obtain ⟨h1, h2, h3, h4⟩ := key.1 f.kinds f.pend
  exact ⟨⟨h1, h2, fun p => by rw [key.2]; exact f.calm p⟩, h3, h4⟩

theorem checks_check (N p : Nat) (s : LW) : Checks N s (check N p s).1 := .check p .refl

def Got (N : Nat) (s s' : LW) (p : Nat) : Option Nat → Prop
  | some m => ∃ a, Reaches s'.w p a ∧ M.Own s'.w a m
  | none => Vain N M.Own s' s p

def ListGot (N : Nat) (s s' : LW) (l : List (Nat × Caster)) : Option Nat → Prop
  | some m => ∃ x ∈ l, ∃ q a, s'.w.find x.1 = some q ∧ Reaches s'.w q a ∧ M.Own s'.w a m
  | none => ∀ x ∈ l, ∃ q, s'.w.find x.1 = some q ∧ Vain N M.Own s' s q

theorem find_grows {w w' : World} (g : World.Grows w w') {t q : Nat} (h : w.find t = some q) : w'.find t = some q :=
  (find_iff _ _ _).2 ⟨g.valid _ ((find_iff _ _ _).1 h).1, g.metaClass _ _ ((find_iff _ _ _).1 h).2⟩

theorem firstBase_got {N : Nat} {F : Nat → LM (Option Nat)} (hG : ∀ p s, Checks N s (F p s).1)
    (hF : ∀ p s s' r, Fine rank W s → Reachable rank s.w → s.w.kind p = some .cls → F p s = (s', .val r) → Ext s'.w W → Got M N s s' p r)
    (l : List (Nat × Caster)) (s s' : LW) (r : Option Nat) (hs : Fine rank W s) (hr : Reachable rank s.w) (h : firstBase F l s = (s', .val r)) (hW : Ext s'.w W) :
    ListGot M N s s' l r := by
  induction l generalizing s with
  | nil => cases h; simp [ListGot]
  | cons x l ih =>
    unfold firstBase at h
    obtain ⟨s1, q, h1, h2⟩ := bind_eq_val h
    have hfind : s.w.find x.1 = some q ∧ s1 = s := by
      unfold LM.read at h1
      dsimp only at h1
      split at h1
      · cases h1
      · rename_i e; cases h1; exact ⟨e, rfl⟩
    obtain ⟨hq, rfl⟩ := hfind
    obtain ⟨s2, o, h3, h4⟩ := bind_eq_val h2
    have hk : s1.w.kind q = some .cls := (((World.Inv.reachable hr).mc _ _ ((find_iff _ _ _).1 hq).2).2).1
    have g1 := hG q s1
    rw [h3] at g1
    obtain ⟨f2, e2, l2⟩ := Checks.fine g1 hs
    cases o with
    | some m =>
      cases h4
      obtain ⟨a, ha, ho⟩ := hF q s1 s' _ hs hr hk h3 hW
      exact ⟨x, .head _, q, a, find_grows (later_grows hr (l2 hW hr)).2 hq, ha, ho⟩
    | none =>
      have h4 : firstBase F l s2 = (s', .val r) := h4
      have g2 : Checks N s2 s' := by
        have := (io _ (checks_look N)).firstBase (f := F) (f' := F) hG l s2
        rw [h4] at this; exact this
      obtain ⟨f3, e3, l3⟩ := Checks.fine g2 f2
      have l12 := l2 (e3.trans hW) hr
      have r2 := later_reachable hr l12
      have l23 := l3 hW r2
      have hv := hF q s1 s2 _ hs hr hk h3 (e3.trans hW)
      have hrest := ih s2 f2 r2 h4
      have hx : ∃ q, s'.w.find x.1 = some q ∧ Vain N M.Own s' s1 q :=
        ⟨q, find_grows ((later_grows hr l12).2.trans (later_grows r2 l23).2) hq, Vain.widen M .refl g2 hv⟩
      cases r with
      | none =>
        intro y hy
        rcases List.mem_cons.1 hy with rfl | hy
        · exact hx
        · obtain ⟨q', h5, h6⟩ := hrest y hy
          exact ⟨q', h5, Vain.widen M g1 .refl h6⟩
      | some m =>
        obtain ⟨y, hy, q', a, h5⟩ := hrest
        exact ⟨y, .tail _ hy, q', a, h5⟩

theorem lookup_got (N : Nat) (F : Nat → Nat → LM (Option Nat)) (h0 : ∀ p, F 0 p = LM.diverge)
    (hF : ∀ k p, F (k + 1) p = (check (N + 1) p).bind fun _ => (LM.read fun w => M.own w p).bind fun r =>
      match r with
      | some p => LM.pure (some p)
      | none => withBases p (firstBase fun p => F k p))
    (hG : ∀ k p s, Checks (N + 1) s (F k p s).1)
    (fuel p : Nat) (s s' : LW) (r : Option Nat) (hs : Fine rank W s) (hr : Reachable rank s.w) (hp : s.w.kind p = some .cls)
    (h : F fuel p s = (s', .val r)) (hW : Ext s'.w W) : Got M (N + 1) s s' p r := by
  induction fuel generalizing p s s' r with
  | zero => rw [h0] at h; cases h
  | succ k ih =>
    rw [hF] at h
    obtain ⟨s1, _, h1, h2⟩ := bind_eq_val h
    have g1 : Checks (N + 1) s s1 := by
      have := checks_check (N + 1) p s
      rw [h1] at this; exact this
    have hpend : s1.pending p = none := by
      have := check_done (fuel := N) (p := p) (hs.calm p)
      rw [h1] at this; exact this
    obtain ⟨f1, e1, l1⟩ := Checks.fine g1 hs
    obtain ⟨s2, o, h3, h4⟩ := bind_eq_val h2
    have e2 : s1 = s2 ∧ M.own s1.w p = .val o := by
      unfold LM.read at h3
      exact ⟨congrArg Prod.fst h3, congrArg Prod.snd h3⟩
    obtain ⟨rfl, ho⟩ := e2
    cases o with
    | some m =>
      cases h4
      have r1 := later_reachable hr (l1 hW hr)
      exact ⟨p, .refl _, (M.spec r1 p _ ho m).1 rfl⟩
    | none =>
      unfold withBases at h4
      dsimp only at h4
      cases e : firstBase (fun p => F k p) (s1.w.cls p).bases { s1 with iter := p :: s1.iter } with
      | mk s3 r3 =>
        rw [e] at h4
        cases h4
        have hs1' : Fine rank W { s1 with iter := p :: s1.iter } := ⟨f1.kinds, f1.pend, f1.calm⟩
        have g2 : Checks (N + 1) { s1 with iter := p :: s1.iter } s3 := by
          have := (io _ (checks_look (N + 1))).firstBase (f := fun p => F k p) (f' := fun p => F k p) (hG k) (s1.w.cls p).bases { s1 with iter := p :: s1.iter }
          rw [e] at this; exact this
        obtain ⟨f3, e3, l3⟩ := Checks.fine g2 hs1'
        have ls1 := l1 (e3.trans hW) hr
        have r1 := later_reachable hr ls1
        have l13 := l3 hW r1
        have hgot := firstBase_got M (hG k) (fun p s s' r a b c d e => ih p s s' r a b c d e) _ _ _ _ hs1' r1 e hW
        have hk1 : s1.w.kind p = some .cls := e1.kind _ _ hp
        have hg13 := (later_grows r1 l13).2
        cases r with
        | some m =>
          obtain ⟨x, hx, q, a, h5, h6, h7⟩ := hgot
          obtain ⟨t, ht⟩ := hg13.bases p hk1
          have ht : (s3.w.cls p).bases = (s1.w.cls p).bases ++ t := ht
          exact ⟨a, .step ((declared_iff _ _ _).2 ⟨x, by rw [ht]; exact List.mem_append_left _ hx, h5⟩) h6, h7⟩
        | none =>
          have hno : ∀ m, ¬M.Own s1.w p m := fun m hm => by simpa using (M.spec r1 p _ ho m).2 hm
          refine .mk (s1 := s1) g1 (.lock _ (Checks.trans (.lock _ .refl) g2)) hpend hno fun b hb => ?_
          obtain ⟨x, hx, hq⟩ := (declared_iff _ _ _).1 hb
          obtain ⟨q, h5, h6⟩ := hgot x hx
          have : s3.w.find x.1 = some b := find_grows hg13 hq
          rw [this] at h5
          cases h5
          exact Vain.widen M (s := { s1 with iter := p :: s1.iter }) (s' := s3) (.lock _ .refl) (.lock _ .refl) h6

end

def methodS (n : Str) : Sort' where
  own w c := w.ownMethod c n
  Own w c m := OwnMethod w n c m
  spec _ c r h m := by
    obtain ⟨r', e, h'⟩ := World.ownMethod_spec _ c n
    rw [h] at e
    cases e
    exact h' m
  keep g c m hc h := by
    obtain ⟨it, h1, pre, post, h2, h3, h4⟩ := h
    obtain ⟨s, hs⟩ := g.items c .method hc
    exact ⟨it, h1, pre, post ++ s, by rw [hs, h2]; simp, h3, h4⟩

def propertyS (n : Str) (hn : n ≠ []) : Sort' where
  own w c := .val (w.ownProperty c n)
  Own w c m := OwnProperty w n c m
  spec r c o e m := by
    cases e
    exact (World.Inv.reachable r).ownProperty_spec c n hn m
  keep g c m hc h := by
    obtain ⟨it, h1, h2⟩ := h
    obtain ⟨s, hs⟩ := g.items c .property hc
    exact ⟨it, by rw [hs]; exact List.mem_append_left _ h1, h2⟩

end Rtti.Lazy
