import Verif.Lemmas.LazySim
import Verif.Lemmas.Create
import Verif.Spec.Create
import Verif.Spec.LazyReach
set_option autoImplicit false
namespace Rtti.Lazy
open LM Spec

theorem later_trans {rank : TypeId → Nat} {a b c : World} (h : Later rank a b) (h' : Later rank b c) : Later rank a c := by
  induction h' with
  | refl => exact h
  | step op _ hl hu hd ih => exact .step op ih hl hu hd
  | missed o k n _ ho hk ih => exact .missed o k n ih ho hk

theorem later_reachable {rank : TypeId → Nat} {a b : World} (h : Reachable rank a) (l : Later rank a b) : Reachable rank b := by
  induction l with
  | refl => exact h
  | step op _ hl hu hd ih => exact .step op ih hl hu hd
  | missed o k n _ ho hk ih => exact .missed o k n ih ho hk

structure Ext (w w' : World) : Prop where
  kind : ∀ p k, w.kind p = some k → w'.kind p = some k
  type : ∀ p, w.kind p = some .cls → (w'.cls p).typeId = (w.cls p).typeId

theorem Ext.refl (w : World) : Ext w w := ⟨fun _ _ h => h, fun _ _ => rfl⟩
theorem Ext.trans {a b c : World} (h : Ext a b) (h' : Ext b c) : Ext a c :=
  ⟨fun p k e => h'.kind p k (h.kind p k e), fun p e => (h'.type p (h.kind p _ e)).trans (h.type p e)⟩

theorem Ext.isContainer {w w' : World} (h : Ext w w') {c : Ptr} (hc : w.isContainer c = true) : w'.isContainer c = true := by
  rw [World.isContainer_iff] at hc ⊢
  rcases hc with e | e
  · exact .inl (h.kind _ _ e)
  · exact .inr (h.kind _ _ e)

/-- what a look-up in the container itself says is about the state it leaves -/
theorem getItem_none {chk : Nat → LM Unit} {o : Ptr} {k : Cat} {n : Str} {s : LW} (h : (Lazy.getItem chk o k n s).2 = .val none) :
    (Lazy.getItem chk o k n s).1.w.getItem o k n = .val none := by
  unfold Lazy.getItem LM.bind at h ⊢
  rcases e : chk o s with ⟨s1, r⟩
  rw [e] at h
  cases r with
  | val a => exact h
  | throw _ => cases h
  | ub => cases h
  | diverge => cases h

theorem getConstructor_none {chk : Nat → LM Unit} {o : Ptr} {n : Str} {s : LW} (h : (Lazy.getConstructor chk o n s).2 = .val none) :
    (Lazy.getConstructor chk o n s).1.w.getConstructor o n = .val none := by
  unfold Lazy.getConstructor LM.bind at h ⊢
  rcases e : chk o s with ⟨s1, r⟩
  rw [e] at h
  cases r with
  | val a => exact h
  | throw _ => cases h
  | ub => cases h
  | diverge => cases h

theorem tryCreate_missed (o : Ptr) (k : Cat) (n : Str) (w : World) : (tryCreate o k n 0 w).1 = missed w o k n := by
  unfold tryCreate missed World.getOrCreate
  rfl

theorem getItem_container {w : World} {o : Ptr} {k : Cat} {n : Str} (h : w.getItem o k n = .val none) : w.isContainer o = true := by
  cases hc : w.isContainer o with
  | true => rfl
  | false => rw [World.getItem_ub hc] at h; cases h

theorem getItem_some (o : Ptr) (k : Cat) (n : Str) :
    (∀ w : World, w.getItem o k n ≠ .diverge) ∧ ∀ w : World, w.isContainer o = true → w.getItem o k n ≠ .ub := by
  refine ⟨fun w => ?_, fun w h => ?_⟩ <;> (unfold World.getItem; split <;> simp_all)

theorem getConstructor_some (o : Ptr) (n : Str) :
    (∀ w : World, w.getConstructor o n ≠ .diverge) ∧ ∀ w : World, w.isContainer o = true → w.getConstructor o n ≠ .ub := by
  refine ⟨fun w => ?_, fun w h => ?_⟩ <;> (unfold World.getConstructor; split <;> (try split) <;> simp_all)

mutual
theorem declares_all {P : Ptr → TypeId → Prop} : ∀ c, Declares P c →
    Cmd.All (fun x => (∀ p t k, x = .op (.addBase p t k) → P p t) ∧ ∀ p b, x = .install p b → DeclaresAll P b) c
  | .attempt b, h => by unfold Cmd.All; unfold Declares at h; exact declaresAll_all b h
  | .op o, h => by
    unfold Cmd.All
    refine ⟨?_, by simp⟩
    rintro p t k e
    cases e
    unfold Declares at h
    exact h
  | .install p b, h => by
    unfold Cmd.All
    refine ⟨by simp, ?_⟩
    rintro p b e
    cases e
    unfold Declares at h
    exact h
  | .setAttr .., _ | .query _, _ | .raise, _ => by unfold Cmd.All; simp
theorem declaresAll_all {P : Ptr → TypeId → Prop} : ∀ cs, DeclaresAll P cs →
    Cmds.All (fun x => (∀ p t k, x = .op (.addBase p t k) → P p t) ∧ ∀ p b, x = .install p b → DeclaresAll P b) cs
  | [], _ => by simp [Cmds.All]
  | c :: cs, h => by unfold DeclaresAll at h; unfold Cmds.All; exact ⟨declares_all c h.1, declaresAll_all cs h.2⟩
end

section
variable (rank : TypeId → Nat) (W : World)

def Proper (this : Ptr) (t : TypeId) : Prop := W.kind this = some .cls → rank t < rank (W.cls this).typeId

def PendingOk (s : LW) : Prop := ∀ p b, s.pending p = some b → DeclaresAll (Proper rank W) b

def Leads (s s' : LW) : Prop := KindsOk s → PendingOk rank W s →
  KindsOk s' ∧ PendingOk rank W s' ∧ Ext s.w s'.w ∧ (Ext s'.w W → Reachable rank s.w → Later rank s.w s'.w)

theorem leads_look : QLook (Leads rank W) where
  refl s := fun h g => ⟨h, g, .refl _, fun _ _ => .refl⟩
  trans := by
    intro a b c h h' k g
    obtain ⟨k1, g1, e1, l1⟩ := h k g
    obtain ⟨k2, g2, e2, l2⟩ := h' k1 g1
    refine ⟨k2, g2, e1.trans e2, fun e r => ?_⟩
    have l := l1 (e2.trans e) r
    exact later_trans l (l2 e (later_reachable r l))
  iter h := h

/-- a state that differs in nothing the relation speaks of -/
theorem Leads.same {s s' : LW} (hw : s'.w = s.w) (hp : PendingOk rank W s → PendingOk rank W s') : Leads rank W s s' := by
  intro k g
  refine ⟨?_, hp g, ?_, ?_⟩
  · unfold KindsOk; rw [hw]; exact k
  · rw [hw]; exact .refl _
  · rw [hw]; exact fun _ _ => .refl

/-- changes of the world only -/
theorem Leads.world {s : LW} {w : World} (hk : KindsOk s → KindsOk { s with w := w } ∧ Ext s.w w)
    (hl : Ext w W → Reachable rank s.w → Later rank s.w w) : Leads rank W s { s with w := w } :=
  fun k g => ⟨(hk k).1, g, (hk k).2, hl⟩

theorem ext_tryCreate {s : LW} (k : KindsOk s) (o : Nat) (c : Cat) (n : Str) (t : Nat) : Ext s.w (tryCreate o c n t s.w).1 := by
  have hk := (kinds_tryCreate o c n t s k).2
  refine ⟨hk, fun p e => ?_⟩
  have hp := k p _ e
  unfold tryCreate
  dsimp only
  split <;> simp [World.addItem, World.alloc, World.free, upd_ne _ _ (show p ≠ s.w.next by omega)]

/-- creation of something found nowhere by a look-up in the container -/
theorem later_create {w : World} (h : Reachable rank w) {o : Ptr} {k : Cat} {n : Str} {op : World.Op} {look : World → Res (Option Ptr)}
    (hl : Legal rank w op) (e : w.step op = w.getOrCreate o k n 0 look fun w _ => w) (hlook : look w = .val none)
    (ho : w.isContainer o = true) (hd : ∀ w', look w' ≠ .diverge) (hu : ∀ w', w'.isContainer o = true → look w' ≠ .ub) :
    Later rank w (tryCreate o k n 0 w).1 := by
  have i := World.Inv.reachable h
  have e1 : (w.step op).1 = (tryCreate o k n 0 w).1 := by
    rw [e]; unfold World.getOrCreate tryCreate; rw [hlook]; dsimp only; split <;> rfl
  have hc : (tryCreate o k n 0 w).1.isContainer o = true := by
    rw [← e1]; exact (i.grows_step op hl).isContainer ho
  have e2 : (w.step op).2 ≠ .ub ∧ (w.step op).2 ≠ .diverge := by
    have e3 : (w.step op).2 = .val (some w.next) ∨ (w.step op).2 = look (tryCreate o k n 0 w).1 := by
      rw [e]; unfold World.getOrCreate tryCreate; rw [hlook]; dsimp only
      split
      · exact .inl rfl
      · exact .inr rfl
    rcases e3 with e3 | e3 <;> rw [e3]
    · exact ⟨by simp, by simp⟩
    · exact ⟨hu _ hc, hd _⟩
  rw [← e1]
  exact .step op .refl hl e2.1 e2.2

theorem leads_getOrCreate {look : LM (Option Ptr)} {f : World → World × Res (Option Ptr)} (hl : ∀ s, Leads rank W s (look s).1) (s : LW)
    (hc : Ext s.w (look s).1.w → (look s).2 = .val none →
      Leads rank W (look s).1 { (look s).1 with w := (f (look s).1.w).1 }) :
    Leads rank W s (Lazy.getOrCreate look f s).1 := by
  intro ks gs
  have h1 := hl s
  have hx := (h1 ks gs).2.2.1
  have h2 := hc hx
  revert ks gs
  show Leads rank W s _
  unfold Lazy.getOrCreate LM.bind
  rcases e : look s with ⟨s1, r⟩
  rw [e] at h1 h2
  cases r with
  | throw _ => exact h1
  | ub => exact h1
  | diverge => exact h1
  | val r =>
    cases r with
    | some p => exact h1
    | none =>
      have h2 := h2 rfl
      have h12 := (leads_look rank W).trans h1 h2
      dsimp only [change]
      rcases e2 : (f s1.w).2 with r2 | er | _ | _
      · cases r2 with
        | some p => exact h12
        | none => exact (leads_look rank W).trans h12 (hl _)
      · exact h12
      · exact h12
      · exact h12

theorem leads_tryCreate {s : LW} {o : Ptr} {c : Cat} {n : Str}
    (hl : Reachable rank s.w → Later rank s.w (tryCreate o c n 0 s.w).1) :
    Leads rank W s { s with w := (tryCreate o c n 0 s.w).1 } :=
  Leads.world rank W (fun k => ⟨(kinds_tryCreate o c n 0 s k).1, ext_tryCreate k o c n 0⟩) fun _ r => hl r

theorem leads_createClass {s : LW} {o : Ptr} {n : Str} {t : TypeId} (hn : s.w.getItem o .cls n = .val none) :
    Leads rank W s { s with w := (tryCreateClass o n t s.w).1 } := by
  have e1 : (tryCreateClass o n t s.w).1 = (s.w.step (.createClass o n t)).1 := by
    simp only [World.step, World.createClass, hn, tryCreateClass, tryCreate, World.getOrCreate]
    split
    · rfl
    · split
      · rfl
      · cases hb : ((s.w.alloc .cls n o t).addItem o .cls ⟨s.w.next, n⟩).2 <;> simp
  refine Leads.world rank W (fun k => ⟨(kinds_tryCreateClass o n t s k).1, ?_⟩) fun _ r => ?_
  · have x := ext_tryCreate k o .cls n t
    unfold tryCreateClass
    split
    · exact .refl _
    · split
      · exact .refl _
      · split
        · rename_i w1 p e
          rw [e] at x
          exact ⟨x.kind, x.type⟩
        · exact x
  · have i := World.Inv.reachable r
    have hc : (s.w.step (.createClass o n t)).1.isContainer o = true :=
      (i.grows_step (.createClass o n t) trivial).isContainer (getItem_container hn)
    have e2 : (∃ e, (s.w.step (.createClass o n t)).2 = .throw e) ∨ (s.w.step (.createClass o n t)).2 = .val (some s.w.next) ∨
        (s.w.step (.createClass o n t)).2 = (s.w.step (.createClass o n t)).1.getItem o .cls n := by
      simp only [World.step, World.createClass, hn, World.getOrCreate]
      split
      · exact .inl ⟨_, rfl⟩
      · split
        · exact .inl ⟨_, rfl⟩
        · cases hb : ((s.w.alloc .cls n o t).addItem o .cls ⟨s.w.next, n⟩).2
          · simp
          · simp
    rw [e1]
    refine .step (.createClass o n t) .refl trivial ?_ ?_
    · rcases e2 with ⟨e, h⟩ | h | h <;> rw [h]
      · simp
      · simp
      · exact (getItem_some o _ n).2 _ hc
    · rcases e2 with ⟨e, h⟩ | h | h <;> rw [h]
      · simp
      · simp
      · exact (getItem_some o _ n).1 _

theorem leads_addBase {p : Ptr} {t : TypeId} (hb : Proper rank W p t) (c : Caster) (s : LW) :
    Leads rank W s (change (fun w => w.step (.addBase p t c)) s).1 := by
  have ht : Ext s.w (s.w.step (.addBase p t c)).1 := by
    refine ⟨fun q k e => by rw [(kinds_addBase p t c s.w).1]; exact e, fun q _ => ?_⟩
    rcases step_addBase s.w p t c with h | h <;> rw [h]
    unfold World.addBaseClass
    split
    · rfl
    · split
      · rfl
      · rename_i base _
        simp only [World.addDerivedClass]
        have h1 : (upd s.w.cls p { s.w.cls p with bases := World.basesAdd (s.w.cls p).bases t c } q).typeId = (s.w.cls q).typeId := by
          by_cases e : q = p
          · subst e; rw [upd_same]
          · rw [upd_ne _ _ e]
        split
        · exact h1
        · split
          · exact h1
          · dsimp only
            by_cases e : q = base
            · subst e; rw [upd_same]; exact h1
            · rw [upd_ne _ _ e]; exact h1
  refine Leads.world rank W (fun k => ⟨?_, ht⟩) fun x r => ?_
  · intro q k' e
    dsimp only at e ⊢
    rw [(kinds_addBase p t c s.w).1] at e
    rw [(kinds_addBase p t c s.w).2]
    exact k q k' e
  · have i := World.Inv.reachable r
    by_cases hk : s.w.kind p = some .cls
    · have hl : Legal rank s.w (.addBase p t c) := by
        have x' := ht.trans x
        have := hb (x'.kind p _ hk)
        rw [x'.type p hk] at this
        exact this
      have e2 : (∃ e, (s.w.step (.addBase p t c)).2 = .throw e) ∨ (s.w.step (.addBase p t c)).2 = .val none := by
        simp only [World.step, hk, if_true]
        rcases World.addBaseClass_eq i p hk t c with ⟨_, e⟩ | ⟨_, _, e⟩ | ⟨b, _, _, e, _⟩
        · rw [e]; exact .inl ⟨_, rfl⟩
        · rw [e]; exact .inl ⟨_, rfl⟩
        · rcases e3 : s.w.addBaseClass p t c with ⟨w', r'⟩
          rw [e3] at e; dsimp only at e; rw [e]; exact .inr rfl
      refine .step (.addBase p t c) .refl hl ?_ ?_ <;> rcases e2 with ⟨e, h⟩ | h <;> rw [h] <;> simp
    · have : s.w.step (.addBase p t c) = (s.w, .ub) := by simp [World.step, hk]
      dsimp only; rw [this]; exact .refl

variable {chk : Nat → LM Unit} (hc : ∀ p s, Leads rank W s (chk p s).1)
include hc

theorem leads_getItem (o : Ptr) (k : Cat) (n : Str) (s : LW) : Leads rank W s (Lazy.getItem chk o k n s).1 :=
  (io _ (leads_look rank W)).getItem (chk := chk) (chk' := chk) hc o k n s

theorem leads_op (fuel : Nat) (o : World.Op) (hb : ∀ p t c, o = .addBase p t c → Proper rank W p t) (s : LW) :
    Leads rank W s (Lazy.op chk fuel o s).1 := by
  let R := io _ (leads_look rank W)
  have hmiss : ∀ {look : LM (Option Ptr)} (o : Ptr) (k : Cat) (n : Str), k = .method ∨ k = .property →
      (∀ s, Leads rank W s (look s).1) → ∀ s, s.w.isContainer o = true → Leads rank W s (Lazy.getOrCreate look (tryCreate o k n 0) s).1 := by
    intro look o k n hk hl s ho
    refine leads_getOrCreate rank W hl s fun x _ => leads_tryCreate rank W fun r => ?_
    rw [tryCreate_missed]
    exact .missed o k n .refl (x.isContainer ho) hk
  cases o with
  | registerType t =>
    refine Leads.world rank W (fun k => ?_) fun _ r => .step (.registerType t) .refl trivial ?_ ?_
    · simp only [World.step]
      split
      · exact ⟨k, .refl _⟩
      · exact ⟨k, ⟨fun _ _ h => h, fun _ _ => rfl⟩⟩
    · simp only [World.step]; split <;> simp
    · simp only [World.step]; split <;> simp
  | createNamespace o n =>
    refine leads_getOrCreate rank W (leads_getItem rank W hc o _ n) s fun _ h => leads_tryCreate rank W fun r => ?_
    have hn := getItem_none (chk := chk) h
    exact later_create rank r (op := .createNamespace o n) (look := fun w => w.getItem o .nmspace n) trivial rfl hn
      (getItem_container hn) (getItem_some o _ n).1 (getItem_some o _ n).2
  | createEnum o n =>
    refine leads_getOrCreate rank W (leads_getItem rank W hc o _ n) s fun _ h => leads_tryCreate rank W fun r => ?_
    have hn := getItem_none (chk := chk) h
    exact later_create rank r (op := .createEnum o n) (look := fun w => w.getItem o .enum n) trivial rfl hn
      (getItem_container hn) (getItem_some o _ n).1 (getItem_some o _ n).2
  | createClass o n t =>
    refine leads_getOrCreate rank W (leads_getItem rank W hc o _ n) s fun _ h => ?_
    have hn := getItem_none (chk := chk) h
    exact leads_createClass rank W hn
  | createMethod o n i =>
    cases hcn : s.w.isContainer o with
    | false =>
      have e : Lazy.op chk fuel (.createMethod o n i) s = (s, .ub) := by
        show LM.bind _ _ s = _
        simp [LM.bind, LM.read, hcn]
      rw [e]; exact (leads_look rank W).refl s
    | true =>
      have e : Lazy.op chk fuel (.createMethod o n i) s = (if !i then LM.pure none else Lazy.getOrCreate (Lazy.getMethod chk fuel o n) (tryCreate o .method n 0)) s :=
        bind_val (a := ()) (by simp [LM.read, hcn])
      rw [e]
      cases i with
      | false => exact (leads_look rank W).refl s
      | true => exact hmiss o _ n (.inl rfl) (R.getMethod (chk := chk) (chk' := chk) hc (.inl rfl) o n) s hcn
  | createProperty o n i =>
    cases hcn : s.w.isContainer o with
    | false =>
      have e : Lazy.op chk fuel (.createProperty o n i) s = (s, .ub) := by
        show LM.bind _ _ s = _
        simp [LM.bind, LM.read, hcn]
      rw [e]; exact (leads_look rank W).refl s
    | true =>
      have e : Lazy.op chk fuel (.createProperty o n i) s = (if n = [] ∨ !i then LM.pure none else Lazy.getOrCreate (Lazy.getProperty chk fuel o n) (tryCreate o .property n 0)) s :=
        bind_val (a := ()) (by simp [LM.read, hcn])
      rw [e]
      split
      · exact (leads_look rank W).refl s
      · exact hmiss o _ n (.inr rfl) (R.getProperty (chk := chk) (chk' := chk) hc (.inl rfl) o n) s hcn
  | createConstructor o n i =>
    cases hcn : s.w.isContainer o with
    | false =>
      have e : Lazy.op chk fuel (.createConstructor o n i) s = (s, .ub) := by
        show LM.bind _ _ s = _
        simp [LM.bind, LM.read, hcn]
      rw [e]; exact (leads_look rank W).refl s
    | true =>
      have e : Lazy.op chk fuel (.createConstructor o n i) s = (if !i then LM.pure none else Lazy.getOrCreate (Lazy.getConstructor chk o n) (tryCreate o .constructor n 0)) s :=
        bind_val (a := ()) (by simp [LM.read, hcn])
      rw [e]
      cases i with
      | false => exact (leads_look rank W).refl s
      | true =>
        refine leads_getOrCreate rank W (R.getConstructor (chk := chk) (chk' := chk) hc o n) s fun x h => leads_tryCreate rank W fun r => ?_
        have hn := getConstructor_none (chk := chk) h
        refine later_create rank r (op := .createConstructor o n true) (look := fun w => w.getConstructor o n) trivial ?_ hn
          (x.isContainer hcn) (getConstructor_some o n).1 (getConstructor_some o n).2
        simp only [World.step, x.isContainer hcn, if_true, World.createConstructor]
        rfl
  | addBase p t c =>
    unfold Lazy.op
    dsimp only
    split
    · exact (leads_look rank W).refl s
    · exact leads_addBase rank W (hb p t c rfl) c s

theorem leads_execs (fuel : Nat) (cs : List Cmd) (h : DeclaresAll (Proper rank W) cs) (s : LW) :
    Leads rank W s (execs chk fuel cs s).1 := by
  refine (io _ (leads_look rank W)).execs (chk' := chk) (fuel' := fuel)
    ((io _ (leads_look rank W)).leaf hc (.inl rfl) (fun o ho s => leads_op rank W hc fuel o (fun p t c e => ho.1 p t c (by rw [e])) s)
      (fun p n v _ s => ?_) (fun p b hb s => ?_)) cs (declaresAll_all cs h) s
  · unfold setAttr; split <;> exact Leads.same rank W rfl fun g => g
  · unfold install
    split
    · exact (leads_look rank W).refl s
    · split
      · exact (leads_look rank W).refl s
      · refine Leads.same rank W rfl fun g q b' e => ?_
        dsimp only at e
        unfold upd at e
        split at e
        · cases e; exact hb.2 p _ rfl
        · exact g q b' e

omit hc in
theorem leads_check (fuel p : Nat) (s : LW) : Leads rank W s (check fuel p s).1 := by
  induction fuel generalizing p s with
  | zero => exact (leads_look rank W).refl s
  | succ fuel ih =>
    cases hp : s.pending p with
    | none => rw [check_idle (.inl hp)]; exact (leads_look rank W).refl s
    | some body =>
      cases hr : s.running p with
      | true => rw [check_idle (.inr hr)]; exact (leads_look rank W).refl s
      | false =>
        rw [check_run hp hr]
        intro k g
        revert k
        have h1 := leads_execs rank W ih fuel body (g p body hp) (begin_ s p body)
        have h0 : Leads rank W s (begin_ s p body) := Leads.same rank W rfl fun g => g
        have h2 : ∀ s : LW, Leads rank W s (end_ s p) := fun s => Leads.same rank W rfl fun g q b e => by
          unfold end_ at e
          dsimp only at e
          unfold upd at e
          split at e
          · cases e
          · exact g q b e
        exact fun k => (leads_look rank W).trans h0 ((leads_look rank W).trans h1 (h2 _)) k g

omit hc in
theorem leads_run (fuel : Nat) (cs : List Cmd) (h : DeclaresAll (Proper rank W) cs) (s : LW) : Leads rank W s (run fuel cs s).1 :=
  leads_execs rank W (leads_check rank W fuel) fuel cs h s

end

end Rtti.Lazy
