import Verif.Lemmas.RegFaults
/-
Objects without a name are only in a registry that is alive.
-/
set_option autoImplicit false
namespace Rtti

namespace Reg
variable {nm : RType → Str}

/-- nothing but its destructor ends the life of `customTypes()` -/
def Keeps (r r' : Reg) : Prop := r.types = .alive → r'.types = .alive

theorem Keeps.refl (r : Reg) : Keeps r r := id
theorem Keeps.trans {a b c : Reg} (h : Keeps a b) (h' : Keeps b c) : Keeps a c := fun x => h' (h x)

theorem keeps_ofId (r : Reg) (k : Nat) : Keeps r (r.ofId k).1 := by
  unfold ofId customTypes Keeps
  cases h : r.types <;> simp [h]

theorem keeps_ofName (r : Reg) (n : Str) : Keeps r (r.ofName n).1 := by
  unfold ofName customTypes Keeps
  cases h : r.types <;> simp [h]

theorem keeps_typeId (r : Reg) (n : Nat) : Keeps r (r.typeId n).1 := by
  unfold typeId customTypes Keeps
  cases h : r.types <;> simp [h]

theorem keeps_withList {A : Type} {r : Reg} {a b : Nat} {d : A} {f : Reg → Nat × Nat → Res (Reg × A)}
    (hf : ∀ r k p, f r k = .val p → Keeps r p.1) {p : Reg × A} (h : r.withList a b d f = .val p) : Keeps r p.1 := by
  unfold withList at h
  split at h
  · cases h; exact .refl r
  · unfold customConverters at h
    cases hc : r.convs <;> simp only [hc] at h
    · rcases hk : ({ r with convs := .alive, order := .convs :: r.order } : Reg).key a b with k | _ | _ | _ <;>
        rw [hk] at h <;> simp only [Res.bind] at h <;> try cases h
      exact fun x => hf { r with convs := .alive, order := .convs :: r.order } _ _ h x
    · rcases hk : r.key a b with k | _ | _ | _ <;> rw [hk] at h <;> simp only [Res.bind] at h <;> try cases h
      exact hf _ _ _ h
    · cases h; exact .refl r

theorem keeps_hasConverter {r : Reg} {a b : Nat} {p : Reg × Bool} (h : r.hasConverter a b = .val p) : Keeps r p.1 :=
  (keeps_ofId r a).trans ((keeps_ofId _ b).trans (keeps_withList (by intro r k p h; cases h; exact .refl _) h))

theorem keeps_unregisterConverter {r : Reg} {a b : Nat} {p : Reg × Unit} (h : r.unregisterConverter a b = .val p) : Keeps r p.1 :=
  (keeps_ofId r a).trans ((keeps_ofId _ b).trans (keeps_withList (by intro r k p h; cases h; exact id) h))

theorem keeps_convert {r : Reg} {a b : Nat} {p : Reg × Option Nat} (h : r.convert a b = .val p) : Keeps r p.1 :=
  (keeps_ofId r a).trans ((keeps_ofId _ b).trans (keeps_withList (by
    intro r k p h
    split at h
    · cases h; exact .refl _
    · split at h
      · cases h; exact .refl _
      · cases h) h))

end Reg

namespace FReg
variable {oom : Nat → Bool} {nm : RType → Str}
open Reg (Keeps)

def Held (s : FReg) : Prop := s.lost ≠ [] → s.reg.types = .alive

theorem Held.put {s : FReg} (h : Held s) {r : Reg} {n : Nat} (k : Keeps s.reg r) : Held ⟨r, s.lost, n⟩ := fun x => k (h x)

theorem held_addTypeInfo {s : FReg} (h : Held s) (ha : s.reg.types = .alive) (m : Str) (d : Desc) (c : Nat) :
    Held (s.addTypeInfo oom m d c).1 := by
  unfold addTypeInfo
  split
  · exact h
  · split
    · exact h
    · split
      · exact h
      · split
        · exact fun _ => ha
        · refine fun _ => ?_
          unfold Reg.addTypeInfo
          split
          · exact ha
          · split <;> exact ha

theorem held_registerMetaType {s : FReg} (h : Held s) (m : Str) (d : Desc) (c : Nat) :
    Held (s.registerMetaType oom m d c).1 := by
  unfold registerMetaType
  split
  · exact h
  · rename_i r hr
    have ha : r.types = .alive := by
      unfold Reg.customTypes at hr
      split at hr
      · cases hr
      · rename_i e; cases hr; exact e
      · cases hr; rfl
    exact held_addTypeInfo (s := { s with reg := r }) (fun _ => ha) ha m d c

theorem held_initHolder {s : FReg} (h : Held s) (T : RType) (c : Nat) : Held (s.initHolder oom nm T c).1 := by
  have := held_registerMetaType (oom := oom) h (nm T) (describe T) c
  unfold initHolder
  split
  · rename_i e; rw [e] at this; exact this
  · rename_i e; rw [e] at this; exact this

theorem held_metaTypeIdDecayed {s : FReg} (h : Held s) (T : RType) : Held (s.metaTypeIdDecayed oom nm T).1 := by
  unfold metaTypeIdDecayed
  split
  · exact h
  · split
    · exact h
    · exact held_initHolder h T 0

theorem held_metaTypeId {s : FReg} (h : Held s) (T : RType) : Held (s.metaTypeId oom nm T).1 := by
  unfold metaTypeId
  split
  · exact h
  · split
    · exact h
    · dsimp only
      split
      · exact held_initHolder h T 0
      · have := held_metaTypeIdDecayed (oom := oom) (nm := nm) h ⟨.none, T.t.fullDecay⟩
        split
        · rename_i e; rw [e] at this; exact this
        · rename_i e; rw [e] at this; exact held_initHolder this T _

theorem held_twoIds {s : FReg} (h : Held s) (S T : RType) : Held (s.twoIds oom nm S T).1 := by
  unfold twoIds
  have h1 := held_metaTypeId (oom := oom) (nm := nm) h S
  split
  · rename_i e; rw [e] at h1; exact h1
  · rename_i s1 a e
    rw [e] at h1
    have h2 := held_metaTypeId (oom := oom) (nm := nm) h1 T
    split
    · rename_i e; rw [e] at h2; exact h2
    · rename_i e; rw [e] at h2; exact h2

theorem held_quiet {A : Type} {s : FReg} (h : Held s) {x : Res (Reg × A)} (hx : ∀ p, x = .val p → Keeps s.reg p.1) :
    Held (s.quiet x).1 := by
  unfold quiet
  split
  · exact h.put (hx _ rfl)
  · exact h

theorem held_unregisterConverterT {s : FReg} (h : Held s) (S T : RType) : Held (s.unregisterConverterT oom nm S T).1 := by
  unfold unregisterConverterT
  have h1 := held_twoIds (oom := oom) (nm := nm) h S T
  split
  · rename_i e; rw [e] at h1; exact h1
  · rename_i e; rw [e] at h1; exact held_quiet h1 fun _ => Reg.keeps_unregisterConverter

theorem held_hasConverterT {s : FReg} (h : Held s) (S T : RType) : Held (s.hasConverterT oom nm S T).1 := by
  unfold hasConverterT
  have h1 := held_twoIds (oom := oom) (nm := nm) h S T
  split
  · rename_i e; rw [e] at h1; exact h1
  · rename_i e; rw [e] at h1; exact held_quiet h1 fun _ => Reg.keeps_hasConverter

theorem held_convertT {s : FReg} (h : Held s) (S T : RType) : Held (s.convertT oom nm S T).1 := by
  unfold convertT
  have h1 := held_twoIds (oom := oom) (nm := nm) h S T
  split
  · rename_i e; rw [e] at h1; exact h1
  · rename_i e; rw [e] at h1; exact held_quiet h1 fun _ => Reg.keeps_convert

theorem held_registerConverter {s : FReg} (h : Held s) (a b : Nat) (c : Slot) : Held (s.registerConverter oom a b c).1 := by
  unfold registerConverter
  have k : Keeps s.reg ((s.reg.ofId a).1.ofId b).1 := (Reg.keeps_ofId _ a).trans (Reg.keeps_ofId _ b)
  dsimp only
  split
  · exact h.put k
  · split
    · exact h.put k
    · rename_i r hr
      have k' : Keeps s.reg r := by
        refine k.trans ?_
        unfold Reg.customConverters at hr
        split at hr
        · cases hr
        · cases hr; exact .refl _
        · cases hr; exact id
      split
      · split
        · exact h.put k'
        · split
          · exact h.put k'
          · exact h.put (r := { r with items := _ }) k'
      · exact h

theorem held_registerConverterT {s : FReg} (h : Held s) (S T : RType) (f fn : Nat) :
    Held (s.registerConverterT oom nm S T f fn).1 := by
  unfold registerConverterT
  have h1 : Held (s.useSlot oom (Reg.slotOf S T f) fn).1 := by
    unfold useSlot
    split
    · split
      · exact h
      · refine h.put ?_
        unfold Reg.useSlot
        split <;> exact id
    · exact h
  dsimp only
  split
  · rename_i e; rw [e] at h1; exact h1
  · rename_i e
    rw [e] at h1
    have h2 := held_twoIds (oom := oom) (nm := nm) h1 ⟨.none, S.t.fullDecay⟩ ⟨.none, T.t.fullDecay⟩
    split
    · rename_i e; rw [e] at h2; exact h2
    · rename_i e; rw [e] at h2; exact held_registerConverter h2 _ _ _

theorem held_destroyNext {s : FReg} (h : Held s) : Held (s.destroyNext oom nm).1 := by
  unfold destroyNext
  split
  · exact h
  · exact fun x => absurd rfl x
  · exact h
  · rename_i c rest _
    have h1 := held_unregisterConverterT (oom := oom) (nm := nm) (s := { s with reg := { s.reg with order := rest } })
      h ⟨.none, c.src⟩ ⟨.none, c.dst⟩
    split <;> rename_i e <;> rw [e] at h1 <;> exact h1

theorem held_ids {x : FReg × Option TypeId} (h : Held x.1) : Held (ids x).1 := by
  unfold ids
  split <;> exact h

theorem held_step {s : FReg} (h : Held s) (op : RegOp) : Held (s.step oom nm op).1 := by
  cases op with
  | reg n d c => exact held_ids (held_registerMetaType h n d c)
  | idOf T => exact held_ids (held_metaTypeId h T)
  | hasT S T => exact held_hasConverterT h S T
  | convertT S T => exact held_convertT h S T
  | regT S T f fn => exact held_registerConverterT h S T f fn
  | unregT S T => exact held_unregisterConverterT h S T
  | destroy => exact held_destroyNext h
  | lookup n =>
    refine held_quiet h fun p e => ?_
    simp only [Reg.step] at e
    cases e
    exact (Reg.keeps_ofName _ _).trans (Reg.keeps_typeId _ _)
  | observe id =>
    refine held_quiet h fun p e => ?_
    simp only [Reg.step] at e
    rcases ho : (s.reg.ofId id).1.observe (s.reg.ofId id).2 with o | _ | _ | _ <;> rw [ho] at e <;> cases e
    exact Reg.keeps_ofId _ _
  | observeOld n =>
    refine held_quiet h fun p e => ?_
    simp only [Reg.step] at e
    rcases ho : s.reg.observe n with o | _ | _ | _ <;> rw [ho] at e <;> cases e
    exact .refl _
  | compatible a b =>
    refine held_quiet h fun p e => ?_
    simp only [Reg.step] at e
    rcases ho : ((s.reg.ofId a).1.ofId b).1.compatibleH (s.reg.ofId a).2 ((s.reg.ofId a).1.ofId b).2 with o | _ | _ | _ <;>
      rw [ho] at e <;> cases e
    exact (Reg.keeps_ofId _ _).trans (Reg.keeps_ofId _ _)
  | has a b =>
    refine held_quiet h fun p e => ?_
    simp only [Reg.step] at e
    rcases ho : s.reg.hasConverter a b with o | _ | _ | _ <;> rw [ho] at e <;> cases e
    exact Reg.keeps_hasConverter ho
  | convert a b =>
    refine held_quiet h fun p e => ?_
    simp only [Reg.step] at e
    rcases ho : s.reg.convert a b with o | _ | _ | _ <;> rw [ho] at e <;> cases e
    exact Reg.keeps_convert ho
  | unreg a b =>
    refine held_quiet h fun p e => ?_
    simp only [Reg.step] at e
    rcases ho : s.reg.unregisterConverter a b with o | _ | _ | _ <;> rw [ho] at e <;> cases e
    exact Reg.keeps_unregisterConverter ho

theorem held_run (ops : List RegOp) : ∀ {s : FReg}, Held s → Held (s.run oom nm ops).1 := by
  induction ops with
  | nil => intro s h; exact h
  | cons op ops ih =>
    intro s h
    have h1 := held_step (oom := oom) (nm := nm) h op
    unfold run
    split
    · rename_i e; rw [e] at h1; exact h1
    · rename_i e; rw [e] at h1; exact h1
    · rename_i e; rw [e] at h1; exact ih h1

theorem destroy_all_ok (hn : Function.Injective nm) (h0 : ∀ T, nm T ≠ []) (n : Nat) : ∀ {sd : Bool} {s : FReg}, s.reg.Ok sd →
    (∀ k, s.n ≤ k → oom k = false) → ∃ sd', (s.run oom nm (List.replicate n .destroy)).1.reg.Ok sd' := by
  induction n with
  | zero => intro sd s o _; exact ⟨sd, o⟩
  | succ n ih =>
    intro sd s o hm
    obtain ⟨s', e, o', hn', _⟩ := destroy_spec (oom := oom) hn h0 o hm
    rw [List.replicate_succ, run_cons, e]
    exact ih o' fun k hk => hm k (Nat.le_trans hn' hk)

end FReg
end Rtti
