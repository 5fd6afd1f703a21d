import Verif.Lemmas.LazySim
import Verif.Lemmas.Graph
set_option autoImplicit false
namespace Rtti.Lazy
open LM Spec

/-! ### callbacks that define into their own container leave every other finished container alone -/

theorem find_iff (w : World) (t q : Nat) : w.find t = some q ↔ w.valid t = true ∧ w.metaClass t = some q := by
  unfold World.find
  split <;> simp_all

structure WF (s : LW) : Prop where
  kinds : KindsOk s
  wf : ∀ c k, (s.w.cont c k).Wf
  mc : ∀ t q, s.w.metaClass t = some q → q < s.w.next
  alive : Alive s
  loc : ∀ p b, s.pending p = some b → Locals p b

structure Frame (s s' : LW) : Prop where
  wf : WF s'
  next : s.w.next ≤ s'.w.next
  pend : ∀ a, s.pending a = none → s'.pending a = none
  cont : ∀ a, a < s.w.next → s.pending a = none → s'.w.cont a = s.w.cont a
  bases : ∀ a, a < s.w.next → s.pending a = none → (s'.w.cls a).bases = (s.w.cls a).bases
  find : ∀ t q, s.w.find t = some q → s'.w.find t = some q
  running : s'.running = s.running
  kept : ∀ p, s.running p = true → s'.pending p = s.pending p

theorem Frame.refl {s : LW} (h : WF s) : Frame s s :=
  ⟨h, Nat.le_refl _, fun _ h => h, fun _ _ _ => rfl, fun _ _ _ => rfl, fun _ _ h => h, rfl, fun _ _ => rfl⟩

theorem Frame.trans {a b c : LW} (h : Frame a b) (h' : Frame b c) : Frame a c where
  wf := h'.wf
  next := Nat.le_trans h.next h'.next
  pend x hx := h'.pend x (h.pend x hx)
  cont x hx hp := (h'.cont x (Nat.lt_of_lt_of_le hx h.next) (h.pend x hp)).trans (h.cont x hx hp)
  bases x hx hp := (h'.bases x (Nat.lt_of_lt_of_le hx h.next) (h.pend x hp)).trans (h.bases x hx hp)
  find t q e := h'.find t q (h.find t q e)
  running := h'.running.trans h.running
  kept p hp := (h'.kept p (by rw [h.running]; exact hp)).trans (h.kept p hp)

/-- inside the callback of `o` (`none`: outside all) -/
def In (o : Option Nat) (s : LW) : Prop := ∀ c, o = some c → s.running c = true ∧ s.pending c ≠ none

def FrameIn (o : Option Nat) (s s' : LW) : Prop := In o s → WF s → Frame s s'

theorem frameIn_look (o : Option Nat) : QLook (FrameIn o) where
  refl _ _ h := .refl h
  trans := by
    intro a b c h h' i w
    have f := h i w
    exact f.trans (h' (fun x e => ⟨by rw [f.running]; exact (i x e).1, by rw [f.kept x (i x e).1]; exact (i x e).2⟩) f.wf)
  iter := by
    intro s s' i h hi w
    have f := h hi { w with }
    exact { f with wf := { f.wf with } }

theorem frame_reg (o : Option Nat) (t : Nat) :
    (io _ (frameIn_look o)).K (change fun w => w.step (.registerType t)) (change fun w => w.step (.registerType t)) := by
  intro s i w
  unfold change
  simp only [World.step]
  split
  · exact .refl w
  · refine ⟨{ w with }, Nat.le_refl _, fun _ h => h, fun _ _ _ => rfl, fun _ _ _ => rfl, fun t' q e => ?_, rfl, fun _ _ => rfl⟩
    rw [find_iff] at e ⊢
    refine ⟨?_, e.2⟩
    simp only [upd]
    split
    · rfl
    · exact e.1

theorem tryCreate_frame (c : Nat) (k : Cat) (n : Str) (t : Nat) (w : World) (hw : ∀ a j, (w.cont a j).Wf) :
    (tryCreate c k n t w).1.next = w.next + 1 ∧ (tryCreate c k n t w).1.metaClass = w.metaClass ∧
    (tryCreate c k n t w).1.valid = w.valid ∧
    (∀ a, a < w.next → ((tryCreate c k n t w).1.cls a) = (w.cls a)) ∧
    (∀ a, a < w.next → a ≠ c → (tryCreate c k n t w).1.cont a = w.cont a) ∧
    (∀ a j, ((tryCreate c k n t w).1.cont a j).Wf) := by
  have hw1 : ∀ a j, (((w.alloc k n c t).addItem c k ⟨w.next, n⟩).1.cont a j).Wf := by
    intro a j
    have h0 : ∀ a j, ((w.alloc k n c t).cont a j).Wf := by
      intro a j
      simp only [World.alloc, upd]
      split
      · exact ItemList.Wf.empty
      · exact hw a j
    simp only [World.addItem, upd]
    split
    · simp only [Container.addItem]
      split
      · exact (h0 c k).add _
      · exact h0 c j
    · exact h0 a j
  have hc1 : ∀ a, a < w.next → a ≠ c → ((w.alloc k n c t).addItem c k ⟨w.next, n⟩).1.cont a = w.cont a := by
    intro a ha hac
    simp only [World.addItem, upd, if_neg hac, World.alloc]
    rw [if_neg (by omega)]
  have hcl : ∀ a, a < w.next → ((w.alloc k n c t).addItem c k ⟨w.next, n⟩).1.cls a = w.cls a := by
    intro a ha
    simp only [World.addItem, upd, World.alloc]
    rw [if_neg (by omega)]
  unfold tryCreate
  dsimp only
  split
  · exact ⟨rfl, rfl, rfl, hcl, hc1, hw1⟩
  · exact ⟨rfl, rfl, rfl, hcl, hc1, hw1⟩

theorem tryCreate_val (c : Nat) (k : Cat) (n : Str) (t : Nat) (w : World) {q : Nat} (h : (tryCreate c k n t w).2 = .val (some q)) :
    q = w.next := by
  unfold tryCreate at h
  dsimp only at h
  split at h <;> cases h
  rfl

theorem frame_tryCreate (c : Nat) (k : Cat) (n : Str) (t : Nat) :
    (io _ (frameIn_look (some c))).K (change (tryCreate c k n t)) (change (tryCreate c k n t)) := by
  intro s i w
  obtain ⟨h1, h2, h3, h4, h5, h6⟩ := tryCreate_frame c k n t s.w w.wf
  have hk := kinds_tryCreate c k n t s w.kinds
  have hne : ∀ a, s.pending a = none → a ≠ c := by rintro a ha rfl; exact (i a rfl).2 ha
  refine ⟨⟨hk.1, h6, fun t' q e => ?_, w.alive, w.loc⟩, ?_, fun _ h => h, fun a ha hp => h5 a ha (hne a hp),
    fun a ha _ => by show ((tryCreate c k n t s.w).1.cls a).bases = _; rw [h4 a ha], fun t' q e => ?_, rfl, fun _ _ => rfl⟩
  · have e : (tryCreate c k n t s.w).1.metaClass t' = some q := e
    rw [h2] at e
    have := w.mc t' q e
    show q < (tryCreate c k n t s.w).1.next
    omega
  · show s.w.next ≤ (tryCreate c k n t s.w).1.next
    omega
  · show (tryCreate c k n t s.w).1.find t' = some q
    unfold World.find at e ⊢
    rw [h2, h3]; exact e

theorem frame_tryCreateClass (c : Nat) (n : Str) (t : Nat) :
    (io _ (frameIn_look (some c))).K (change (tryCreateClass c n t)) (change (tryCreateClass c n t)) := by
  intro s i w
  unfold change tryCreateClass
  split
  · exact .refl w
  · split
    · exact .refl w
    · rename_i hm
      have hf := frame_tryCreate c .cls n t s i w
      obtain ⟨h1, h2, h3, h4, h5, h6⟩ := tryCreate_frame c .cls n t s.w w.wf
      have hq : ∀ q, (tryCreate c .cls n t s.w).2 = .val (some q) → q = s.w.next := fun q => tryCreate_val c .cls n t s.w
      unfold change at hf
      generalize tryCreate c .cls n t s.w = r at hf h1 h2 h3 hq
      obtain ⟨w1, r⟩ := r
      dsimp only at hf h1 h2 h3 hq
      split
      · rename_i w2 q e
        cases e
        have hq := hq q rfl
        refine ⟨⟨hf.wf.kinds, hf.wf.wf, fun t' q' e => ?_, w.alive, w.loc⟩, hf.next, hf.pend, hf.cont, hf.bases, fun t' q' e => ?_, rfl,
          fun _ _ => rfl⟩
        · dsimp only [upd] at e ⊢
          split at e
          · cases e; omega
          · exact hf.wf.mc t' q' e
        · have := hf.find t' q' e
          rw [find_iff] at this ⊢
          refine ⟨this.1, ?_⟩
          dsimp only [upd]
          split
          · rename_i e'
            subst e'
            have h := this.2
            dsimp only at h
            rw [h2] at h
            rw [h] at hm
            simp at hm
          · exact this.2
      · exact hf

theorem frame_addBase (c t : Nat) (f : Caster) :
    (io _ (frameIn_look (some c))).K (change fun w => w.step (.addBase c t f)) (change fun w => w.step (.addBase c t f)) := by
  intro s i w
  unfold change
  rcases step_addBase s.w c t f with h | h <;> (dsimp only; rw [h])
  · exact .refl w
  · obtain ⟨h1, h2, h3, h4, h5, h6⟩ := addBaseClass_frame s.w c t f
    have hne : ∀ a, s.pending a = none → a ≠ c := by rintro a ha rfl; exact (i a rfl).2 ha
    generalize s.w.addBaseClass c t f = r at h1 h2 h3 h4 h5 h6
    refine ⟨⟨?_, ?_, ?_, w.alive, w.loc⟩, ?_, fun _ h => h, ?_, ?_, ?_, rfl, fun _ _ => rfl⟩
    · intro p k e; dsimp only at e ⊢; rw [h1] at e; rw [h2]; exact w.kinds p k e
    · intro a k; dsimp only; rw [h3]; exact w.wf a k
    · intro t q e; dsimp only at e ⊢; rw [h5] at e; rw [h2]; exact w.mc t q e
    · dsimp only; rw [h2]; exact Nat.le_refl _
    · intro a _ _; dsimp only; rw [h3]
    · intro a _ hp; exact h6 a (hne a hp)
    · intro t q e; unfold World.find at e ⊢; dsimp only; rw [h4, h5]; exact e

mutual
theorem local_all {c : Nat} : ∀ x, Local c x → Cmd.All (Local c) x
  | .attempt b, h => by unfold Cmd.All; exact locals_all b (by simpa [Local] using h)
  | .op _, h | .setAttr .., h | .query _, h | .raise, h | .install .., h => by simpa only [Cmd.All] using h
theorem locals_all {c : Nat} : ∀ xs, Locals c xs → Cmds.All (Local c) xs
  | [], _ => by simp [Cmds.All]
  | x :: l, h => by
    unfold Cmds.All
    simp only [Locals] at h
    exact ⟨local_all x h.1, locals_all l h.2⟩
end

theorem frame_op {c : Nat} {chk : Nat → LM Unit} (hc : ∀ p, (io _ (frameIn_look (some c))).K (chk p) (chk p)) (fuel : Nat) (o : World.Op)
    (hl : Local c (.op o)) : (io _ (frameIn_look (some c))).K (Lazy.op chk fuel o) (Lazy.op chk fuel o) := by
  have ho : ∀ ow, opOwner o = some ow → ow = c := by
    intro ow h
    cases o <;> simp only [opOwner] at h <;> cases h <;> simpa [Local] using hl
  refine (io _ (frameIn_look (some c))).op hc (.inl rfl) o (fun t _ => frame_reg _ t) (fun ow h k n _ => ?_) (fun ow n t h => ?_) ?_
  · rw [ho ow h]; exact frame_tryCreate c k n 0
  · rw [ho ow (by rw [h]; rfl)]; exact frame_tryCreateClass c n t
  · rintro p t f rfl s
    have := ho p rfl
    subst this
    unfold Lazy.op
    dsimp only
    split
    · exact (frameIn_look _).refl s
    · exact frame_addBase p t f s

theorem frame_execs {c : Nat} {chk : Nat → LM Unit} (hc : ∀ p, (io _ (frameIn_look (some c))).K (chk p) (chk p)) (fuel : Nat)
    (cs : List Cmd) (hl : Locals c cs) : (io _ (frameIn_look (some c))).K (execs chk fuel cs) (execs chk fuel cs) := by
  refine (io _ (frameIn_look (some c))).execs
    ((io _ (frameIn_look (some c))).leaf hc (.inl rfl) (fun o h => frame_op hc fuel o h) (fun p n v _ => ?_) (fun p b h => ?_))
    cs (locals_all cs hl)
  · intro s i w
    unfold setAttr
    split
    · exact ⟨{ w with }, Nat.le_refl _, fun _ h => h, fun _ _ _ => rfl, fun _ _ _ => rfl, fun _ _ h => h, rfl, fun _ _ => rfl⟩
    · exact .refl w
  · simp [Local] at h

theorem frame_check (fuel p : Nat) : (io _ (frameIn_look none)).K (check fuel p) (check fuel p) := by
  induction fuel generalizing p with
  | zero => exact fun s => (frameIn_look none).refl s
  | succ fuel ih =>
    intro s _ w
    cases hp : s.pending p with
    | none => rw [check_idle (.inl hp)]; exact .refl w
    | some body =>
      cases hr : s.running p with
      | true => rw [check_idle (.inr hr)]; exact .refl w
      | false =>
        have hk := keeps_check (fuel + 1) p s
        rw [check_run hp hr] at hk ⊢
        have hf := frame_execs (c := p) (fun q s _ w => ih q s (by intro c e; cases e) w) fuel body (w.loc p body hp) (begin_ s p body)
          (by
            rintro c e
            cases e
            exact ⟨by simp [begin_, upd], by simp [begin_, hp]⟩)
          { w with alive := begin_keeps w.alive hp hr }
        generalize execs (check fuel) fuel body (begin_ s p body) = r at hf hk
        refine ⟨⟨hf.wf.kinds, hf.wf.wf, hf.wf.mc, hk.alive w.alive, fun q b e => ?_⟩, hf.next, fun a ha => ?_, hf.cont, hf.bases, hf.find,
          hk.running, hk.kept w.alive⟩
        · dsimp only [end_, upd] at e
          split at e
          · cases e
          · exact hf.wf.loc q b e
        · have := hf.pend a ha
          dsimp only [end_, upd]
          split
          · rfl
          · exact this

/-! ### look-up through bases with pending definitions -/

theorem declared_iff (w : World) (d b : Nat) : DeclaredBase w d b ↔ ∃ x ∈ (w.cls d).bases, w.find x.1 = some b := by
  unfold DeclaredBase World.baseClass World.baseClassCount
  constructor
  · rintro ⟨k, hk, h⟩
    rw [dif_pos hk] at h
    exact ⟨_, List.getElem_mem hk, h⟩
  · rintro ⟨x, hx, h⟩
    obtain ⟨k, hk, rfl⟩ := List.mem_iff_getElem.1 hx
    exact ⟨k, hk, by rw [dif_pos hk]; exact h⟩

/-- a kind of member: how it is looked up in one container and what that means -/
structure Member where
  own : World → Nat → Res (Option Nat)
  Own : World → Nat → Nat → Prop
  spec : ∀ s : LW, WF s → ∀ c r, own s.w c = .val r → ∀ m, r = some m ↔ Own s.w c m
  cont : ∀ w w' c m, w.cont c = w'.cont c → Own w c m → Own w' c m

variable (M : Member)

/-- everything reachable from `x` was visited, nothing is pending there and nothing was found -/
def Searched (s : LW) (x : Nat) : Prop :=
  ∀ a, Reaches s.w x a → a < s.w.next ∧ s.pending a = none ∧ (∀ m, ¬ M.Own s.w a m) ∧
    ∀ y ∈ (s.w.cls a).bases, ∃ q, s.w.find y.1 = some q

theorem Searched.frame {s s' : LW} {x : Nat} (h : Searched M s x) (f : Frame s s') : Searched M s' x := by
  have key : ∀ y a, Reaches s.w x y → Reaches s'.w y a → Reaches s.w y a := by
    intro y a hy hr
    induction hr with
    | refl => exact .refl _
    | @step d m b hd _ ih =>
      obtain ⟨z, hz, hq⟩ := (declared_iff _ _ _).1 hd
      obtain ⟨h1, h2, _, h4⟩ := h _ hy
      rw [f.bases _ h1 h2] at hz
      obtain ⟨q, hq'⟩ := h4 z hz
      have e := f.find _ _ hq'
      rw [hq] at e
      cases e
      have hd' : DeclaredBase s.w d m := (declared_iff _ _ _).2 ⟨z, hz, hq'⟩
      exact .step hd' (ih (World.Reaches.trans hy (.step hd' (.refl _))))
  intro a hr
  obtain ⟨h1, h2, h3, h4⟩ := h a (key x a (.refl _) hr)
  refine ⟨Nat.lt_of_lt_of_le h1 f.next, f.pend a h2, fun m hm => h3 m (M.cont _ _ a m (f.cont a h1 h2) hm), fun y hy => ?_⟩
  rw [f.bases a h1 h2] at hy
  obtain ⟨q, hq⟩ := h4 y hy
  exact ⟨q, f.find _ _ hq⟩

def Answer (s : LW) (x : Nat) : Option Nat → Prop
  | some m => Finds s.w (M.Own s.w) x m
  | none => Searched M s x

theorem bind_eq_val {A B : Type} {m : LM A} {f : A → LM B} {s s' : LW} {b : B} (h : m.bind f s = (s', .val b)) :
    ∃ s1 a, m s = (s1, .val a) ∧ f a s1 = (s', .val b) := by
  unfold LM.bind at h
  cases e : m s with
  | mk s1 r =>
    rw [e] at h
    cases r with
    | val a => exact ⟨s1, a, rfl, h⟩
    | throw _ => cases h
    | ub => cases h
    | diverge => cases h

structure Ready (s : LW) : Prop where
  wf : WF s
  calm : ∀ p, s.running p = false

theorem Ready.frame {s s' : LW} (h : Ready s) (f : Frame s s') : Ready s' :=
  ⟨f.wf, fun p => by rw [f.running]; exact h.calm p⟩

def ListAnswer (s' : LW) (l : List (Nat × Caster)) : Option Nat → Prop
  | some m => ∃ pre t f post q, l = pre ++ (t, f) :: post ∧ s'.w.find t = some q ∧ Finds s'.w (M.Own s'.w) q m ∧
      ∀ x ∈ pre, ∃ q, s'.w.find x.1 = some q ∧ Searched M s' q
  | none => ∀ x ∈ l, ∃ q, s'.w.find x.1 = some q ∧ Searched M s' q

theorem firstBase_answer {F : Nat → LM (Option Nat)}
    (hF : ∀ p s s' r, Ready s → p < s.w.next → F p s = (s', .val r) → Frame s s' ∧ Answer M s' p r)
    (l : List (Nat × Caster)) (s s' : LW) (r : Option Nat) (hs : Ready s) (h : firstBase F l s = (s', .val r)) :
    Frame s s' ∧ ListAnswer M s' l r := by
  induction l generalizing s with
  | nil => cases h; exact ⟨.refl hs.wf, by simp [ListAnswer]⟩
  | cons x l ih =>
    unfold firstBase at h
    obtain ⟨s1, q, h1, h2⟩ := bind_eq_val h
    have hfind : s.w.find x.1 = some q ∧ s1 = s := by
      unfold LM.read at h1
      dsimp only at h1
      split at h1
      · cases h1
      · rename_i e; cases h1; exact ⟨e, rfl⟩
    obtain ⟨hq, rfl⟩ := hfind
    obtain ⟨s2, o, h3, h4⟩ := bind_eq_val h2
    have hlt : q < s1.w.next := by
      have := hq
      unfold World.find at this
      split at this
      · exact hs.wf.mc _ _ this
      · cases this
    obtain ⟨f, ha⟩ := hF q s1 s2 o hs hlt h3
    cases o with
    | some m =>
      cases h4
      exact ⟨f, [], x.1, x.2, l, q, rfl, f.find _ _ hq, ha, by simp⟩
    | none =>
      obtain ⟨f', hr⟩ := ih s2 (hs.frame f) h4
      refine ⟨f.trans f', ?_⟩
      have hx : ∃ q, s'.w.find x.1 = some q ∧ Searched M s' q :=
        ⟨q, (f.trans f').find _ _ hq, Searched.frame M ha f'⟩
      cases r with
      | none =>
        intro y hy
        rcases List.mem_cons.1 hy with rfl | hy
        · exact hx
        · exact hr y hy
      | some m =>
        obtain ⟨pre, t, g, post, q', e, h5, h6, h7⟩ := hr
        refine ⟨x :: pre, t, g, post, q', by rw [e]; rfl, h5, h6, fun y hy => ?_⟩
        rcases List.mem_cons.1 hy with rfl | hy
        · exact hx
        · exact h7 y hy

/-- the two look-ups have this shape for a non-empty name -/
theorem lookup_answer (N : Nat) (F : Nat → Nat → LM (Option Nat)) (h0 : ∀ p, F 0 p = LM.diverge)
    (hF : ∀ k p, F (k + 1) p = (check (N + 1) p).bind fun _ => (LM.read fun w => M.own w p).bind fun r =>
      match r with
      | some p => LM.pure (some p)
      | none => withBases p (firstBase fun p => F k p))
    (fuel p : Nat) (s s' : LW) (r : Option Nat) (hs : Ready s) (hp : p < s.w.next) (h : F fuel p s = (s', .val r)) :
    Frame s s' ∧ Answer M s' p r := by
  induction fuel generalizing p s s' r with
  | zero => rw [h0] at h; cases h
  | succ k ih =>
    rw [hF] at h
    obtain ⟨s1, _, h1, h2⟩ := bind_eq_val h
    have f1 : Frame s s1 := by
      have := frame_check (N + 1) p s (by intro c e; cases e) hs.wf
      rw [h1] at this; exact this
    have hpend : s1.pending p = none := by
      have := check_done (fuel := N) (p := p) (hs.calm p)
      rw [h1] at this; exact this
    have hs1 := hs.frame f1
    obtain ⟨s2, o, h3, h4⟩ := bind_eq_val h2
    have e2 : s1 = s2 ∧ M.own s1.w p = .val o := by
      unfold LM.read at h3
      have h5 := congrArg Prod.fst h3
      have h6 := congrArg Prod.snd h3
      exact ⟨h5, h6⟩
    obtain ⟨rfl, ho⟩ := e2
    cases o with
    | some m =>
      cases h4
      exact ⟨f1, .own ((M.spec _ hs1.wf p _ ho m).1 rfl)⟩
    | none =>
      have hno : ∀ m, ¬ M.Own s1.w p m := fun m hm => by simpa using (M.spec s1 hs1.wf p _ ho m).2 hm
      unfold withBases at h4
      dsimp only at h4
      have hlt : p < s1.w.next := Nat.lt_of_lt_of_le hp f1.next
      have hs1' : Ready { s1 with iter := p :: s1.iter } := ⟨{ hs1.wf with }, hs1.calm⟩
      cases e : firstBase (fun p => F k p) (s1.w.cls p).bases { s1 with iter := p :: s1.iter } with
      | mk s3 r3 =>
        rw [e] at h4
        cases h4
        obtain ⟨f, hr⟩ := firstBase_answer M (fun p s s' r h1 h2 h3 => ih p s s' r h1 h2 h3) _ _ _ _ hs1' e
        have f' : Frame s1 { s3 with iter := s1.iter } := { f with wf := { f.wf with } }
        have hb : (s3.w.cls p).bases = (s1.w.cls p).bases := f.bases p hlt hpend
        have hc : s3.w.cont p = s1.w.cont p := f.cont p hlt hpend
        have hno' : ∀ m, ¬ M.Own s3.w p m := fun m hm => hno m (M.cont _ _ p m hc hm)
        refine ⟨f1.trans f', ?_⟩
        cases r with
        | some m =>
          obtain ⟨pre, t, g, post, q, e, h5, h6, h7⟩ := hr
          refine Finds.base (w := s3.w) hno' (by rw [hb, e]) h5 (fun x hx q' hq' a m' hra => ?_) h6
          obtain ⟨q2, hq2, hse⟩ := h7 x hx
          rw [hq'] at hq2
          cases hq2
          exact (hse a hra).2.2.1 m'
        | none =>
          intro a hra
          have hra : Reaches s3.w p a := hra
          cases hra with
          | refl =>
            refine ⟨Nat.lt_of_lt_of_le hlt f.next, f.pend p hpend, hno', fun y hy => ?_⟩
            have hy : y ∈ (s3.w.cls p).bases := hy
            rw [hb] at hy
            obtain ⟨q, hq, _⟩ := hr y hy
            exact ⟨q, hq⟩
          | step hd hra =>
            obtain ⟨z, hz, hq⟩ := (declared_iff _ _ _).1 hd
            rw [hb] at hz
            obtain ⟨q, hq', hse⟩ := hr z hz
            rw [hq] at hq'
            cases hq'
            exact hse a hra

def methodM (n : Str) : Member where
  own w c := w.ownMethod c n
  Own w c m := OwnMethod w n c m
  spec s _ c r h m := by
    obtain ⟨r', e, h'⟩ := World.ownMethod_spec s.w c n
    rw [h] at e
    cases e
    exact h' m
  cont w w' c m e h := by
    unfold OwnMethod at h ⊢
    rw [← e]; exact h

def propertyM (n : Str) (hn : n ≠ []) : Member where
  own w c := .val (w.ownProperty c n)
  Own w c m := OwnProperty w n c m
  spec s h c r e m := by
    cases e
    unfold World.ownProperty OwnProperty
    constructor
    · intro h'
      obtain ⟨it, h1, h2⟩ := Option.map_eq_some_iff.1 h'
      obtain ⟨_, h3, h4⟩ := ((h.wf c .property).get_iff n it).1 h1
      exact ⟨it, h3, h4, h2⟩
    · rintro ⟨it, h1, h2, h3⟩
      rw [((h.wf c .property).get_iff n it).2 ⟨hn, h1, h2⟩]
      simp [h3]
  cont w w' c m e h := by
    unfold OwnProperty at h ⊢
    rw [← e]; exact h

end Rtti.Lazy
