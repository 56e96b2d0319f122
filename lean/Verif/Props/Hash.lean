import Verif.Model.Hash
import Verif.Props.Same
import Verif.Props.Memory
import Verif.Props.Slots
import Mathlib.Data.Fintype.Pigeonhole

set_option autoImplicit false
set_option linter.unusedSectionVars false

/-!
# C70: which changes the hash can hide
-/

namespace Hotmeal
namespace Hash

/-! ## The bytes determine what was hashed -/

theorem length_le (k n : Nat) : (le k n).length = k := by
  induction k generalizing n with
  | zero => rfl
  | succ k ih => simp [le, ih]

theorem le_inj {k : Nat} : ∀ {n m : Nat}, n < 256 ^ k → m < 256 ^ k → le k n = le k m → n = m := by
  induction k with
  | zero => intro n m hn hm _; simp at hn hm; omega
  | succ k ih =>
    intro n m hn hm h
    simp only [le, List.cons.injEq] at h
    have h1 : n % 256 = m % 256 := by
      have := congrArg UInt8.toNat h.1
      simpa using this
    have h2 := ih (n := n / 256) (m := m / 256) (by rw [Nat.pow_succ] at hn; omega)
      (by rw [Nat.pow_succ] at hm; omega) h.2
    omega

theorem append_inj_of_length {α : Type} {a b r s : List α} (hl : a.length = b.length) (h : a ++ r = b ++ s) :
    a = b ∧ r = s := List.append_inj h hl

theorem children_inj : ∀ {cs ds : List UInt64},
    (cs.flatMap fun x => le 8 x.toNat) = (ds.flatMap fun x => le 8 x.toNat) → cs = ds := by
  intro cs
  induction cs with
  | nil =>
    intro ds h
    cases ds with
    | nil => rfl
    | cons d ds =>
      have := congrArg List.length h
      simp [length_le] at this
      omega
  | cons c cs ih =>
    intro ds h
    cases ds with
    | nil =>
      have := congrArg List.length h
      simp [length_le] at this
    | cons d ds =>
      rw [List.flatMap_cons, List.flatMap_cons] at h
      obtain ⟨h1, h2⟩ := append_inj_of_length (by rw [length_le, length_le]) h
      rw [ih h2, UInt64.toNat.inj (le_inj (by have := c.toNat_lt; omega) (by have := d.toNat_lt; omega) h1)]

/-- What the nodes of documents look like: elements have no text; other nodes have one and no children. -/
def Fits (kind : HKind) (text : Option Str) (children : List UInt64) : Prop :=
  (∃ tag ns, kind = .element tag ns) ∧ text = none ∨
  (kind = .text ∨ kind = .comment) ∧ (∃ s, text = some s) ∧ children = []

theorem utf8_inj {s t : List Char} (h : utf8 s = utf8 t) : s = t := by
  obtain ⟨vs, e, hv⟩ := utf8_prefix t (ws := s) (r := []) (by simpa using h)
  cases vs with
  | nil => simpa using e
  | cons v vs =>
    have h1 := congrArg List.length hv
    have h2 := Char.utf8Size_pos v
    simp only [utf8_cons, List.length_append, String.length_utf8EncodeChar, List.length_nil] at h1
    omega

/-- **C70**: the bytes that are hashed for a node determine its kind, its text and the hashes of its children, up to
names with the same hash. -/
theorem C70_input_determines_node (atom : Str → UInt32) {k k' : HKind} {t t' : Option Str} {cs cs' : List UInt64}
    (f : Fits k t cs) (f' : Fits k' t' cs')
    (ha : ∀ tag ns tag' ns', k = .element tag ns → k' = .element tag' ns' → atom tag = atom tag' → tag = tag')
    (h : input atom k t cs = input atom k' t' cs') : k = k' ∧ t = t' ∧ cs = cs' := by
  have disc : ∀ {i j : Nat} {r s : List UInt8}, i < 3 → j < 3 → le 8 i ++ r = le 8 j ++ s → i = j ∧ r = s := by
    intro i j r s hi hj e
    obtain ⟨e1, e2⟩ := append_inj_of_length (by rw [length_le, length_le]) e
    exact ⟨le_inj (by omega) (by omega) e1, e2⟩
  rcases f with ⟨⟨tag, ns, rfl⟩, rfl⟩ | ⟨hk, ⟨s, rfl⟩, rfl⟩ <;>
    rcases f' with ⟨⟨tag', ns', rfl⟩, rfl⟩ | ⟨hk', ⟨s', rfl⟩, rfl⟩
  · simp only [input, kindBytes, textBytes, List.append_assoc, List.nil_append] at h
    obtain ⟨_, h⟩ := disc (by omega) (by omega) h
    obtain ⟨h1, h⟩ := append_inj_of_length (by rw [length_le, length_le]) h
    have h2 := UInt32.toNat.inj (le_inj (by have := (atom tag).toNat_lt; omega)
      (by have := (atom tag').toNat_lt; omega) h1)
    obtain ⟨h3, h⟩ := disc (by cases ns <;> decide) (by cases ns' <;> decide) h
    have h4 : ns = ns' := by revert h3; cases ns <;> cases ns' <;> decide
    rw [ha tag ns tag' ns' rfl rfl h2, h4, children_inj h]
    exact ⟨rfl, rfl, rfl⟩
  · exfalso
    simp only [input, kindBytes, List.append_assoc] at h
    rcases hk' with rfl | rfl
    · exact absurd (disc (by omega) (by omega) h).1 (by decide)
    · exact absurd (disc (by omega) (by omega) h).1 (by decide)
  · exfalso
    simp only [input, kindBytes, List.append_assoc] at h
    rcases hk with rfl | rfl
    · exact absurd (disc (by omega) (by omega) h).1 (by decide)
    · exact absurd (disc (by omega) (by omega) h).1 (by decide)
  · have key : ∀ {i j : Nat}, i < 3 → j < 3 → le 8 i ++ (textBytes (some s) ++ []) = le 8 j ++ (textBytes (some s') ++ [])
        → i = j ∧ s = s' := by
      intro i j hi hj e
      obtain ⟨e1, e2⟩ := disc hi hj e
      refine ⟨e1, utf8_inj ?_⟩
      simp only [textBytes, List.append_nil] at e2
      exact List.append_cancel_right e2
    simp only [input, List.flatMap_nil] at h
    rcases hk with rfl | rfl <;> rcases hk' with rfl | rfl
    · rw [(key (i := 1) (j := 1) (by omega) (by omega) h).2]; exact ⟨rfl, rfl, rfl⟩
    · exact absurd (key (i := 1) (j := 2) (by omega) (by omega) h).1 (by decide)
    · exact absurd (key (i := 2) (j := 1) (by omega) (by omega) h).1 (by decide)
    · rw [(key (i := 2) (j := 2) (by omega) (by omega) h).2]; exact ⟨rfl, rfl, rfl⟩

/-! ## Freedom from collisions -/

/-- What is hashed for the nodes below `r`. -/
def inputs (atom : Str → UInt32) (h : List UInt8 → UInt64) (A : Arena TData) (r : Nat) : List (List UInt8) :=
  (A.descendants r).map fun a => input atom (A.data a).kind (A.data a).text
    ((A.children a).map (DiffTree.ofArena (node atom h) A r).hash)

theorem mem_inputs {atom : Str → UInt32} {h : List UInt8 → UInt64} {A : Arena TData} (hA : A.WF) {r a : Nat}
    (ha : A.Anc r a) : input atom (A.data a).kind (A.data a).text
      ((A.children a).map (DiffTree.ofArena (node atom h) A r).hash) ∈ inputs atom h A r :=
  List.mem_map.2 ⟨a, (hA.mem_descendants _ _).2 ha, rfl⟩

theorem hash_eq {H : Type} {hashNode : HKind → Option Str → List H → H} {A : Arena TData} (hA : A.WF) (r a : Nat) :
    (DiffTree.ofArena hashNode A r).hash a = hashNode (A.data a).kind (A.data a).text
      ((A.children a).map (DiffTree.ofArena hashNode A r).hash) := by
  show A.fold _ a = _
  rw [hA.fold_eq]
  rfl

theorem noCollisionFrom_of {atom : Str → UInt32} {h : List UInt8 → UInt64} {A B : Arena TData} {ra rb : Nat}
    (hA : A.WF) (hB : B.WF)
    (fA : ∀ a, A.Anc ra a → ∀ cs : List UInt64, cs.length = (A.children a).length →
      Fits (A.data a).kind (A.data a).text cs)
    (fB : ∀ b, B.Anc rb b → ∀ cs : List UInt64, cs.length = (B.children b).length →
      Fits (B.data b).kind (B.data b).text cs)
    (hatom : ∀ a b tag ns tag' ns', A.Anc ra a → B.Anc rb b → (A.data a).kind = .element tag ns →
      (B.data b).kind = .element tag' ns' → atom tag = atom tag' → tag = tag')
    (hh : ∀ x ∈ inputs atom h A ra, ∀ y ∈ inputs atom h B rb, h x = h y → x = y) :
    NoCollisionFrom (node atom h) A ra B rb := by
  intro a
  refine hA.induct_down (P := fun a => ∀ b, A.Anc ra a → B.Anc rb b →
    (DiffTree.ofArena (node atom h) A ra).hash a = (DiffTree.ofArena (node atom h) B rb).hash b →
    A.shape a = B.shape b) ?_ a
  intro a ih b ha hb e
  rw [hash_eq hA, hash_eq hB] at e
  obtain ⟨e1, e2, e3⟩ := C70_input_determines_node atom (fA a ha _ (by rw [List.length_map]))
    (fB b hb _ (by rw [List.length_map])) (fun tag ns tag' ns' h1 h2 h3 => hatom a b tag ns tag' ns' ha hb h1 h2 h3)
    (hh _ (mem_inputs hA ha) _ (mem_inputs hB hb) e)
  rw [hA.shape_eq, hB.shape_eq, e1, e2]
  congr 1
  apply List.ext_getElem?
  intro i
  have e4 := congrArg (fun l : List UInt64 => l[i]?) e3
  simp only [List.getElem?_map] at e4 ⊢
  cases h1 : (A.children a)[i]? with
  | none =>
    cases h2 : (B.children b)[i]? with
    | none => rfl
    | some d => rw [h1, h2] at e4; cases e4
  | some c =>
    cases h2 : (B.children b)[i]? with
    | none => rw [h1, h2] at e4; cases e4
    | some d =>
      rw [h1, h2] at e4
      have hc := List.mem_of_getElem? h1
      have hd := List.mem_of_getElem? h2
      exact congrArg some (ih c hc d (.step ((hA.mem_iff _ _).1 hc) ha) (.step ((hB.mem_iff _ _).1 hd) hb)
        (Option.some.inj e4))

/-- The names of the elements below `r`. -/
def names (D : Document) (r : Nat) : List Str :=
  (D.arena.descendants r).filterMap fun n => match (D.arena.data n).kind with
    | .element tag _ => some tag
    | _ => none

theorem mem_names {D : Document} (hD : D.Sound) {r n : Nat} {tag : Str} {attrs : Attrs} (hn : D.arena.Anc r n)
    (hk : (D.arena.data n).kind = .element tag attrs) : tag ∈ names D r :=
  List.mem_filterMap.2 ⟨n, (hD.arena.wf.mem_descendants _ _).2 hn, by rw [hk]⟩

variable {old new : Document} {ob nb : Nat}

theorem fits_tdata {D : Document} (hD : D.Sound) {n p : Nat} (hp : D.arena.parent n = some p)
    {cs : List UInt64} (hl : cs.length = (D.arena.children n).length) :
    Fits (tdataOf (D.arena.data n)).kind (tdataOf (D.arena.data n)).text cs := by
  cases ek : (D.arena.data n).kind with
  | element tag attrs => simp only [tdataOf, ek]; exact .inl ⟨⟨_, _, rfl⟩, rfl⟩
  | text s =>
    rw [hD.arena.leaf n (.inl ⟨s, ek⟩), List.length_nil, List.length_eq_zero_iff] at hl
    simp only [tdataOf, ek]; exact .inr ⟨.inl rfl, ⟨_, rfl⟩, hl⟩
  | comment s =>
    rw [hD.arena.leaf n (.inr ⟨s, ek⟩), List.length_nil, List.length_eq_zero_iff] at hl
    simp only [tdataOf, ek]; exact .inr ⟨.inr rfl, ⟨_, rfl⟩, hl⟩
  | document => exact absurd ek (hD.arena.nodoc n p hp)

theorem tag_of_tdata {d : NodeData} {tag : Str} {ns : Ns} (h : (tdataOf d).kind = .element tag ns) :
    ∃ attrs, d.kind = .element tag attrs := by
  cases ek : d.kind with
  | element tag' attrs => simp only [tdataOf, ek, HKind.element.injEq] at h; rw [h.1]; exact ⟨attrs, rfl⟩
  | _ => simp [tdataOf, ek] at h

theorem anc_built {T : Arena TData} {g : Nat → Nat} (hb : Built old ob T g) (hw : old.arena.WF) {a : Nat}
    (h : T.Anc 0 a) : old.arena.Anc ob (g a) := by
  induction h with
  | refl => rw [hb.g0]; exact .refl
  | @step a p hp h ih =>
    refine .step ((hw.mem_iff _ _).1 ?_) ih
    rw [hb.kids p (hb.wf.lt_of_parent _ _ hp).2]
    exact List.mem_map_of_mem ((hb.wf.mem_iff _ _).2 hp)

/-- **C70**: with a name hash that tells the names in the two bodies apart and a hasher that does not give the same
value for two different inputs that occur, subtrees with the same hash are equal. This is the hypothesis
`NoCollision` of the theorems about `diff`. -/
theorem C70_no_collision (h : Bodies old new ob nb) (atom : Str → UInt32) (hasher : List UInt8 → UInt64)
    (hatom : ∀ t ∈ names old ob, ∀ t' ∈ names new nb, atom t = atom t' → t = t')
    (hh : ∀ x ∈ inputs atom hasher (buildTree old ob) 0, ∀ y ∈ inputs atom hasher (diffable new) nb,
      hasher x = hasher y → x = y) :
    NoCollision (node atom hasher) (buildTree old ob) (diffable new) nb := by
  obtain ⟨g, hb⟩ := buildTree_spec old h.old.arena.leafy ob
  have sn := h.new.arena
  have hBw : (diffable new).WF := ⟨sn.wf.lt_of_parent, sn.wf.mem_iff, sn.wf.nodup, sn.wf.acyclic⟩
  obtain ⟨_, oa, hok⟩ := Document.body_spec h.oldBody
  obtain ⟨_, na, hnk⟩ := Document.body_spec h.newBody
  have hlt : ∀ a, (buildTree old ob).Anc 0 a → a < (buildTree old ob).next := by
    intro a ha
    rcases ha.cases' with rfl | ⟨p, hp, _⟩
    · exact hb.pos
    · exact (hb.wf.lt_of_parent _ _ hp).1
  refine noCollisionFrom_of hb.wf hBw ?_ ?_ ?_ hh
  · intro a ha cs hl
    by_cases h0 : a = 0
    · subst h0
      rw [hb.rdata]
      simp only [bodyKind, hok]
      exact .inl ⟨⟨_, _, rfl⟩, rfl⟩
    · obtain ⟨q, hq⟩ := hb.par a (hlt a ha) h0
      rw [hb.data a (hlt a ha) h0]
      exact fits_tdata h.old hq (by rw [hb.kids a (hlt a ha), List.length_map, hl])
  · intro b hb' cs hl
    show Fits (tdataOf (new.arena.data b)).kind (tdataOf (new.arena.data b)).text cs
    rcases (anc_of_diffable hb').cases' with rfl | ⟨p, hp, _⟩
    · simp only [tdataOf, hnk]
      exact .inl ⟨⟨_, _, rfl⟩, rfl⟩
    · exact fits_tdata h.new hp hl
  · intro a b tag ns tag' ns' ha hb' h1 h2
    refine hatom tag ?_ tag' ?_
    · by_cases h0 : a = 0
      · subst h0
        rw [hb.rdata] at h1
        simp only [bodyKind, hok, HKind.element.injEq] at h1
        exact mem_names h.old .refl (h1.1 ▸ hok)
      · rw [hb.data a (hlt a ha) h0] at h1
        obtain ⟨attrs, hk⟩ := tag_of_tdata h1
        exact mem_names h.old (anc_built hb h.old.arena.wf ha) hk
    · obtain ⟨attrs, hk⟩ := tag_of_tdata h2
      exact mem_names h.new (anc_of_diffable hb') hk

/-! ## No patches, no change -/

variable {H : Type} [DecidableEq H] {hashNode : HKind → Option Str → List H → H}

theorem convertOp_some {B : Arena TData} {ins : List Nat} {C C' : Conv} {op : EditOp} {ps : List Patch}
    (h : convertOp B ins C op = .ok (C', ps)) : ps ≠ [] := by
  cases op with
  | updateProps a b ch => cases h; simp
  | setText a b t => cases h; simp
  | insert b pb pos kind =>
    simp only [convertOp] at h
    obtain ⟨sp, _, h⟩ := res_bind h
    obtain ⟨⟨S, slot⟩, _, h⟩ := res_bind h
    cases h; simp
  | delete a =>
    simp only [convertOp] at h
    obtain ⟨S, _, h⟩ := res_bind h
    cases h; simp
  | move a b pb pos =>
    simp only [convertOp] at h
    obtain ⟨sp, _, h⟩ := res_bind h
    split at h <;>
    · obtain ⟨⟨S, pre⟩, _, h⟩ := res_bind h
      obtain ⟨⟨S', slot⟩, _, h⟩ := res_bind h
      cases h; simp

theorem script_nil_of_diff_nil (h : Bodies old new ob nb) (e : Hotmeal.diff hashNode old new = .ok []) :
    script hashNode old new ob nb = [] := by
  unfold Hotmeal.diff at e
  simp only [h.oldBody, h.newBody] at e
  split at e
  · cases e
  obtain ⟨ps, e1, e⟩ := res_bind e
  obtain ⟨qs, _, e⟩ := res_bind e
  have hps : ps = [] := by
    have : ps ++ qs = [] := by simpa using e
    simp_all
  subst hps
  unfold convertOps at e1
  obtain ⟨S, _, e1⟩ := res_bind e1
  obtain ⟨⟨C, ps⟩, e2, e1⟩ := res_bind e1
  cases e1
  show generateEditScript _ _ _ = []
  generalize generateEditScript _ _ _ = ops at e2 ⊢
  cases ops with
  | nil => rfl
  | cons op ops =>
    exfalso
    simp only [convertLoop] at e2
    obtain ⟨⟨C1, ps1⟩, e3, e2⟩ := res_bind e2
    obtain ⟨⟨C2, ps2⟩, _, e2⟩ := res_bind e2
    have : ps1 ++ ps2 = [] := by
      simp only [Except.ok.injEq, Prod.mk.injEq] at e2; exact e2.2
    exact convertOp_some e3 (List.append_eq_nil_iff.1 this).1

/-- **C70**, partial: when `diff` returns no patches, the bodies have the same HTML. Missing: hash collisions, for
which it is false (`C70_violated`), and opaque elements. -/
theorem C70_no_patches_no_change_partial (h : Comparable old new ob nb) (ho : old.Clear ob) (hn : new.Clear nb)
    (hc : NoCollision hashNode (buildTree old ob) (diffable new) nb)
    (e : Hotmeal.diff hashNode old new = .ok []) :
    old.toBodyHtml = new.toBodyHtml ∧ Html.pruneL old.bodyForest = Html.pruneL new.bodyForest := by
  have hs := script_nil_of_diff_nil ⟨h.old.sound, h.new.sound, h.old.body, h.new.body⟩ e
  obtain ⟨ps, old', e1, e2, e3⟩ := C01_round_trip_partial (hashNode := hashNode) (fun _ => Document.new) h hc
    (opaqueFixed_of_clear h ho hn) (.inl fun S _ => by rw [hs]; rfl)
  rw [e] at e1
  cases e1
  cases e2
  exact e3

/-! ## What a collision hides -/


/-- The same attributes and the same text. -/
def SameLook (d e : NodeData) : Prop :=
  (tdataOf d).props = (tdataOf e).props ∧ (tdataOf d).text = (tdataOf e).text

theorem built_rel {R : NodeData → NodeData → Prop} {R' : TData → TData → Prop}
    (hR : ∀ d e, R d e → R' (tdataOf d) (tdataOf e)) {T : Arena TData} {g : Nat → Nat} (hb : Built old ob T g) :
    ∀ n m, n < T.next → n ≠ 0 → Arena.Alike R old.arena new.arena (g n) m → Arena.Alike R' T (diffable new) n m := by
  intro n
  refine hb.wf.induct_down (P := fun n => ∀ m, n < T.next → n ≠ 0 →
      Arena.Alike R old.arena new.arena (g n) m → Arena.Alike R' T (diffable new) n m) ?_ n
  intro n ih m hn h0 h
  cases h with
  | node data len kids =>
  refine .node ?_ ?_ ?_
  · rw [hb.data n hn h0]; exact hR _ _ data
  · rw [hb.kids n hn, List.length_map] at len
    exact len
  · intro i c d hc hd
    have hpar := (hb.wf.mem_iff _ _).1 (List.mem_of_getElem? hc)
    refine ih c (List.mem_of_getElem? hc) d (hb.wf.lt_of_parent _ _ hpar).1 ?_ (kids i _ d ?_ hd)
    · rintro rfl; rw [hb.root] at hpar; cases hpar
    · rw [hb.kids n hn, List.getElem?_map, hc]; rfl

theorem root_rel {R : NodeData → NodeData → Prop} {R' : TData → TData → Prop}
    (hR : ∀ d e, R d e → R' (tdataOf d) (tdataOf e)) {T : Arena TData} {g : Nat → Nat} (hb : Built old ob T g)
    (hr : R' (T.data 0) ((diffable new).data nb)) (hal : Arena.Alike R old.arena new.arena ob nb) :
    Arena.Alike R' T (diffable new) 0 nb := by
  cases hal with
  | node data len kids =>
  refine .node hr ?_ ?_
  · rw [← hb.g0, hb.kids 0 hb.pos, List.length_map] at len
    exact len
  · intro i c d hc hd
    have hpar := (hb.wf.mem_iff _ _).1 (List.mem_of_getElem? hc)
    refine built_rel hR hb c d (hb.wf.lt_of_parent _ _ hpar).1 ?_ (kids i _ d ?_ hd)
    · rintro rfl; rw [hb.root] at hpar; cases hpar
    · rw [← hb.g0, hb.kids 0 hb.pos, List.getElem?_map, hc]; rfl

/-- Documents with the same structure, attributes and texts and the same hashes at the same places need no patches,
whatever the names of the elements are. -/
theorem diff_of_same_hashes (h : Bodies old new ob nb)
    (hal : Arena.Alike SameLook old.arena new.arena ob nb)
    (hob : (old.arena.data ob).kind = .element "body".toList [])
    (hns : (old.arena.data ob).ns = (new.arena.data nb).ns)
    (hhash : ∀ a b, Corr (buildTree old ob) (diffable new) 0 nb a b →
      (oldTree hashNode old ob).hash a = (newTree hashNode new nb).hash b) :
    Hotmeal.diff hashNode old new = .ok [] := by
  obtain ⟨g, hb⟩ := buildTree_spec old h.old.arena.leafy ob
  have sn := h.new.arena
  have hBw : (diffable new).WF := ⟨sn.wf.lt_of_parent, sn.wf.mem_iff, sn.wf.nodup, sn.wf.acyclic⟩
  obtain ⟨_, na, hnk⟩ := Document.body_spec h.newBody
  have hna : na = [] := by
    cases hal with
    | node data _ _ =>
      have := data.1
      simp only [tdataOf, hob, hnk] at this
      exact this.symm
  subst hna
  have hT : Arena.Alike (fun d e => d.props = e.props ∧ d.text = e.text) (buildTree old ob) (diffable new) 0 nb := by
    refine root_rel (fun _ _ r => r) hb ?_ hal
    rw [hb.rdata]
    show [] = (tdataOf (new.arena.data nb)).props ∧ none = (tdataOf (new.arena.data nb)).text
    simp only [tdataOf, hnk, and_self]
  have hL : Arena.Alike TData.Looks (buildTree old ob) (diffable new) 0 nb :=
    hT.mono fun d e r => ⟨r.2, by rw [r.1]⟩
  have hk : (oldTree hashNode old ob).kind 0 = (newTree hashNode new nb).kind nb := by
    show ((buildTree old ob).data 0).kind = (tdataOf (new.arena.data nb)).kind
    rw [hb.rdata]
    simp only [bodyKind, hob, tdataOf, hnk, hns]
  have hnil : scriptOf hashNode (buildTree old ob) (diffable new) 0 nb
      (diffMatching (oldTree hashNode old ob) (newTree hashNode new nb)) = [] := by
    rw [List.eq_nil_iff_forall_not_mem]
    intro op hop
    obtain ⟨a, b, ch, rfl⟩ := script_looks (hashNode := hashNode) hb.wf hBw hb.pos hb.root hL (hhash _ _ .root) hk op hop
    have hp : (a, b) ∈ (diffMatching (oldTree hashNode old ob) (newTree hashNode new nb)).pairs := by
      obtain ⟨p, h1, h2, h3, h | h⟩ := mem_updateOps.1 ((mem_script_phase hop).2.2.2 rfl)
      · unfold textOps at h
        split at h
        · cases h
        · split at h
          · simp at h
          · cases h
      · rw [Plan.propOps_eq] at h
        split at h
        · simp only [List.mem_singleton, EditOp.updateProps.injEq] at h
          rw [h.1, h.2.1]; exact h1
        · cases h
    have hc := ((diffMatching_looks (hashNode := hashNode) hb.wf hBw hL (hhash _ _ .root) hk).2 a b).1 hp
    have e2 : ((diffable new).data b).props.Unique := by
      show (tdataOf (new.arena.data b)).props.Unique
      cases ek : (new.arena.data b).kind with
      | element tag attrs =>
        simp only [tdataOf, ek]
        exact sn.uniq _ _ _ ek
      | _ => simp [tdataOf, ek, Attrs.Unique]
    have e1 : ((buildTree old ob).data a).props = ((diffable new).data b).props := by
      cases hc.alike hT with | node data _ _ => exact data.1
    rw [C13_prop_updates_exactly_when_needed hb.wf hBw _ _ _ (e1 ▸ e2) e2] at hop
    exact hop.2.2.2.1 e1
  obtain ⟨S, hS, _⟩ := Shadow.new_init hb.wf hb.pos hb.root
  have hnd : ((new.arena.descendants nb).any fun n =>
      decide ((new.arena.data n).kind = .document)) = false := by
    rw [List.any_eq_false]
    intro n hn
    have ha := (sn.wf.mem_descendants _ _).1 hn
    have : (new.arena.data n).kind ≠ .document := by
      rcases ha.cases' with rfl | ⟨p, hp, _⟩
      · rw [hnk]; intro e; cases e
      · exact sn.nodoc n p hp
    simpa using this
  have hoc : opaqueChanges (oldTree hashNode old ob) (newTree hashNode new nb) new.arena
      (diffMatching (oldTree hashNode old ob) (newTree hashNode new nb)) = [] := by
    unfold opaqueChanges
    rw [List.filterMap_eq_nil_iff]
    intro p hp
    have hc := ((diffMatching_looks (hashNode := hashNode) hb.wf hBw hL (hhash _ _ .root) hk).2 p.1 p.2).1 hp
    have := hhash _ _ hc
    split <;> rfl
  unfold Hotmeal.diff
  simp only [h.oldBody, h.newBody, hnd, Bool.false_eq_true, if_false, convertOps, hS, hoc, opaquePatches,
    List.isEmpty_nil, if_true, bind, Except.bind]
  simp only [scriptOf, oldTree, newTree] at hnil ⊢
  simp only [hnil, convertLoop, List.append_nil]

/-- The same node, but elements may have another name with the same hash. -/
def Renamed (atom : Str → UInt32) (d e : NodeData) : Prop :=
  d.kind = e.kind ∧ (∀ tag attrs, d.kind ≠ .element tag attrs) ∨
  ∃ tag tag' attrs, d.kind = .element tag attrs ∧ e.kind = .element tag' attrs ∧ d.ns = e.ns ∧ atom tag = atom tag'

theorem Renamed.tdata {atom : Str → UInt32} {d e : NodeData} (h : Renamed atom d e) :
    (tdataOf d).props = (tdataOf e).props ∧ (tdataOf d).text = (tdataOf e).text ∧
    kindBytes atom (tdataOf d).kind = kindBytes atom (tdataOf e).kind := by
  obtain ⟨k, ns⟩ := d
  obtain ⟨k', ns'⟩ := e
  rcases h with ⟨h1, h2⟩ | ⟨tag, tag', attrs, h1, h2, h3, h4⟩
  · simp only at h1
    subst h1
    cases k with
    | element tag attrs => exact absurd rfl (h2 tag attrs)
    | _ => exact ⟨rfl, rfl, rfl⟩
  · simp only at h1 h2 h3
    subst h1; subst h2; subst h3
    refine ⟨rfl, rfl, ?_⟩
    simp only [tdataOf, kindBytes, h4]

/-- **C70** is violated: documents that differ in the names of elements only, where names at the same place have the
same 32-bit hash, are equal for `diff`, whatever hasher is used. -/
theorem C70_renamed_elements_are_missed (h : Bodies old new ob nb) (atom : Str → UInt32) (hasher : List UInt8 → UInt64)
    (hal : Arena.Alike (Renamed atom) old.arena new.arena ob nb)
    (hob : (old.arena.data ob).kind = .element "body".toList []) :
    Hotmeal.diff (node atom hasher) old new = .ok [] := by
  obtain ⟨g, hb⟩ := buildTree_spec old h.old.arena.leafy ob
  have sn := h.new.arena
  have hBw : (diffable new).WF := ⟨sn.wf.lt_of_parent, sn.wf.mem_iff, sn.wf.nodup, sn.wf.acyclic⟩
  obtain ⟨_, na, hnk⟩ := Document.body_spec h.newBody
  have hns : (old.arena.data ob).ns = (new.arena.data nb).ns ∧ na = [] := by
    cases hal with
    | node data _ _ =>
      rcases data with ⟨_, h2⟩ | ⟨_, _, _, h1, h2, h3, _⟩
      · exact absurd hob (h2 _ _)
      · rw [hob] at h1; cases h1
        rw [hnk] at h2; cases h2
        exact ⟨h3, rfl⟩
  refine diff_of_same_hashes h (hal.mono fun _ _ r => ⟨r.tdata.1, r.tdata.2.1⟩) hob hns.1 ?_
  have hT : Arena.Alike (fun d e => d.text = e.text ∧ kindBytes atom d.kind = kindBytes atom e.kind)
      (buildTree old ob) (diffable new) 0 nb := by
    refine root_rel (fun _ _ (r : Renamed atom _ _) => r.tdata.2) hb ?_ hal
    rw [hb.rdata]
    show none = (tdataOf (new.arena.data nb)).text ∧ _ = kindBytes atom (tdataOf (new.arena.data nb)).kind
    simp only [tdataOf, hnk, bodyKind, hob, hns.1, and_self]
  intro a b hc
  have hab := hc.alike hT
  clear hc
  show (DiffTree.ofArena (node atom hasher) (buildTree old ob) 0).hash a =
    (DiffTree.ofArena (node atom hasher) (diffable new) nb).hash b
  induction hab with
  | @node n m data len kids ih =>
    rw [hash_eq hb.wf, hash_eq hBw]
    simp only [node, input]
    rw [data.1, data.2]
    refine congrArg (fun cs : List UInt64 => hasher (kindBytes atom ((diffable new).data m).kind ++
      (textBytes ((diffable new).data m).text ++ cs.flatMap fun x => le 8 x.toNat))) ?_
    apply List.ext_getElem?
    intro i
    rw [List.getElem?_map, List.getElem?_map]
    cases h1 : ((buildTree old ob).children n)[i]? with
    | none =>
      have : ((diffable new).children m)[i]? = none := by
        rw [List.getElem?_eq_none_iff] at h1 ⊢; omega
      rw [this]; rfl
    | some c =>
      cases h2 : ((diffable new).children m)[i]? with
      | none =>
        rw [List.getElem?_eq_none_iff] at h2
        have := (List.getElem?_eq_some_iff.1 h1).1
        omega
      | some d => exact congrArg some (ih i c d h1 h2)

/-- A body with a single empty element. -/
def one (tag : Str) : List Html := [.element tag [] []]

/-- Names for custom elements. -/
def custom (i : Nat) : Str := 'x' :: '-' :: List.replicate i 'a'

theorem plain_custom (i : Nat) : Html.plainL (one (custom i)) = true := by
  simp [one, custom, Html.tidyL, Html.tidy, Attrs.Unique, Attrs.isOpaque]

theorem html_custom {i j : Nat} (h : i ≠ j) :
    (Document.ofForest (one (custom i))).toBodyHtml ≠ (Document.ofForest (one (custom j))).toBodyHtml := by
  rw [toBodyHtml_eq, toBodyHtml_eq, (ofForest_spec _ (plain_custom i)).2.2.1, (ofForest_spec _ (plain_custom j)).2.2.1]
  intro e
  have hv : ∀ k, isVoid (custom k) = false := by intro k; simp [isVoid, custom]
  have := congrArg List.length e
  simp only [one, Html.serL, Html.ser, hv] at this
  simp [custom, serAttrs] at this
  omega

/-- **C70** is violated for every hash function with finitely many values: some change of the name of an element is
not seen. -/
theorem C70_violated [Finite H] (hashNode : HKind → Option Str → List H → H) : ∃ cs ds : List Html,
    Html.plainL cs = true ∧ Html.plainL ds = true ∧
    Hotmeal.diff hashNode (.ofForest cs) (.ofForest ds) = .ok [] ∧
    (Document.ofForest cs).toBodyHtml ≠ (Document.ofForest ds).toBodyHtml := by
  obtain ⟨i, j, hij, e⟩ := Finite.exists_ne_map_eq_of_infinite
    fun i : Nat => hashNode (.element (custom i) .html) none []
  refine ⟨one (custom i), one (custom j), plain_custom i, plain_custom j, ?_, html_custom hij⟩
  obtain ⟨a1, a2, _, a4, _⟩ := ofForest_spec _ (plain_custom i)
  obtain ⟨b1, b2, _, b4, _⟩ := ofForest_spec _ (plain_custom j)
  have hb : ∀ k, (Document.ofForest (one (custom k))).arena.children 2 = [3] := fun k => rfl
  have hb3 : ∀ k, (Document.ofForest (one (custom k))).arena.children 3 = [] := fun k => rfl
  have hd3 : ∀ k, (Document.ofForest (one (custom k))).arena.data 3 = ⟨.element (custom k) [], .html⟩ := fun k => rfl
  have ht : ∀ k, (buildTree (Document.ofForest (one (custom k))) 2).children 0 = [1] := fun k => rfl
  have ht1 : ∀ k, (buildTree (Document.ofForest (one (custom k))) 2).children 1 = [] := fun k => rfl
  have htd : ∀ k, (buildTree (Document.ofForest (one (custom k))) 2).data 1 = ⟨.element (custom k) .html, [], none⟩ :=
    fun k => rfl
  obtain ⟨g, hbu⟩ := buildTree_spec _ a1.arena.leafy 2
  have sn := b1.arena
  have hBw : (diffable (.ofForest (one (custom j)))).WF :=
    ⟨sn.wf.lt_of_parent, sn.wf.mem_iff, sn.wf.nodup, sn.wf.acyclic⟩
  have hleaf : (oldTree hashNode (.ofForest (one (custom i))) 2).hash 1 =
      (newTree hashNode (.ofForest (one (custom j))) 2).hash 3 := by
    show (DiffTree.ofArena _ _ _).hash 1 = (DiffTree.ofArena _ _ _).hash 3
    rw [hash_eq hbu.wf, hash_eq hBw, ht1, htd]
    exact e
  refine diff_of_same_hashes ⟨a1, b1, a2, b2⟩ ?_ (by rw [a4]; rfl) (by rw [a4, b4]) ?_
  · refine .node (by rw [a4, b4]; exact ⟨rfl, rfl⟩) (by rw [hb, hb]) ?_
    intro k c d hc hd
    rw [hb] at hc hd
    obtain ⟨rfl, rfl⟩ : c = 3 ∧ d = 3 := ⟨by have := List.mem_of_getElem? hc; simpa using this,
      by have := List.mem_of_getElem? hd; simpa using this⟩
    refine .node (by rw [hd3, hd3]; exact ⟨rfl, rfl⟩) (by rw [hb3, hb3]) ?_
    intro k c d hc
    rw [hb3] at hc; cases hc
  · have hb2 : (diffable (Document.ofForest (one (custom j)))).children 2 = [3] := rfl
    have hcor : ∀ a b, Corr (buildTree (Document.ofForest (one (custom i))) 2)
        (diffable (Document.ofForest (one (custom j)))) 0 2 a b → (a = 0 ∧ b = 2) ∨ (a = 1 ∧ b = 3) := by
      intro a b hc
      induction hc with
      | root => exact .inl ⟨rfl, rfl⟩
      | @child p q k a b _ _ ha hb' ih =>
        rcases ih with ⟨rfl, rfl⟩ | ⟨rfl, rfl⟩
        · rw [ht] at ha
          rw [hb2] at hb'
          exact .inr ⟨by have := List.mem_of_getElem? ha; simpa using this,
            by have := List.mem_of_getElem? hb'; simpa using this⟩
        · rw [ht1] at ha; cases ha
    intro a b hc
    rcases hcor a b hc with ⟨rfl, rfl⟩ | ⟨rfl, rfl⟩
    · show (DiffTree.ofArena _ _ _).hash 0 = (DiffTree.ofArena _ _ _).hash 2
      rw [hash_eq hbu.wf, hash_eq hBw, ht, hbu.rdata]
      show _ = hashNode (.element "body".toList .html) none [_]
      rw [show [1].map (DiffTree.ofArena hashNode (buildTree (Document.ofForest (one (custom i))) 2) 0).hash =
        [(newTree hashNode (.ofForest (one (custom j))) 2).hash 3] from by
          rw [← hleaf]; rfl]
      simp only [bodyKind, a4, Document.elem]
      rfl
    · exact hleaf

theorem eq_of_single {l : List Nat} {x i c : Nat} (h : l = [x]) (hc : l[i]? = some c) : c = x := by
  have := List.mem_of_getElem? hc
  rw [h] at this
  simpa using this

/-! ## Short names in `string_cache` -/

/-- The hash of an interned name of at most seven bytes in `string_cache` 0.9 (`Atom::get_hash`): the name is stored
in a 64-bit word, with its length and a tag in the lowest byte; the hash is the exclusive or of the two halves. The
crate is not part of the repository; this is written down from its published source and is used in the case below
only. -/
def inlineHash (name : Str) : UInt32 :=
  let bytes := name.flatMap String.utf8EncodeChar
  let word := ((UInt8.ofNat (1 + 16 * bytes.length) :: bytes).map UInt8.toNat).foldr (fun b n => b + 256 * n) 0
  UInt32.ofNat ((word / 2 ^ 32) ^^^ (word % 2 ^ 32))

/-- The custom elements `x-a` and `x-ap` have the same hash there. -/
theorem inlineHash_collision : inlineHash "x-a".toList = inlineHash "x-ap".toList := by decide +kernel

/-- **C70**: replacing an `x-a` element by an `x-ap` element is not seen, with any hasher. -/
theorem C70_violated_short_names (hasher : List UInt8 → UInt64) :
    Hotmeal.diff (node inlineHash hasher) (.ofForest [ex "p" [] [ex "x-a" [] [.text "t".toList]]])
      (.ofForest [ex "p" [] [ex "x-ap" [] [.text "t".toList]]]) = .ok [] := by
  refine C70_renamed_elements_are_missed (ob := 2) (nb := 2)
    ⟨(ofForest_spec _ (by decide +kernel)).1, (ofForest_spec _ (by decide +kernel)).1, rfl, rfl⟩ _ _ ?_ rfl
  refine .node (.inr ⟨_, _, _, rfl, rfl, rfl, rfl⟩) rfl ?_
  intro i c d hc hd
  obtain ⟨rfl, rfl⟩ : c = 3 ∧ d = 3 := ⟨eq_of_single rfl hc, eq_of_single rfl hd⟩
  refine .node (.inr ⟨_, _, _, rfl, rfl, rfl, rfl⟩) rfl ?_
  intro i c d hc hd
  obtain ⟨rfl, rfl⟩ : c = 4 ∧ d = 4 := ⟨eq_of_single rfl hc, eq_of_single rfl hd⟩
  refine .node (.inr ⟨_, _, _, rfl, rfl, rfl, inlineHash_collision⟩) rfl ?_
  intro i c d hc hd
  obtain ⟨rfl, rfl⟩ : c = 5 ∧ d = 5 := ⟨eq_of_single rfl hc, eq_of_single rfl hd⟩
  refine .node (.inl ⟨rfl, fun _ _ e => by cases e⟩) rfl ?_
  intro i c d hc hd
  cases hc

/-! ## Cases that meet the hypotheses -/

/-- FNV-1a, for the case below. -/
def fnv (bs : List UInt8) : UInt64 :=
  bs.foldl (fun x b => UInt64.ofNat ((x.toNat ^^^ b.toNat) * 1099511628211)) 14695981039346656037

/-- Without collisions: the two lists of `ex1` and `ex2`. -/
example : Bodies (.ofForest ex1) (.ofForest ex2) 2 2 ∧
    (∀ t ∈ names (.ofForest ex1) 2, ∀ t' ∈ names (.ofForest ex2) 2, inlineHash t = inlineHash t' → t = t') ∧
    (∀ x ∈ inputs inlineHash fnv (buildTree (.ofForest ex1) 2) 0,
      ∀ y ∈ inputs inlineHash fnv (diffable (.ofForest ex2)) 2, fnv x = fnv y → x = y) ∧
    5 < (inputs inlineHash fnv (diffable (.ofForest ex2)) 2).length :=
  ⟨⟨(ofForest_spec _ (by decide +kernel)).1, (ofForest_spec _ (by decide +kernel)).1, rfl, rfl⟩,
    by decide +kernel, by decide +kernel, by decide +kernel⟩

/-- The bytes for a text and for an element with two children. -/
example : Fits .text (some "a".toList) [] ∧ Fits (.element "p".toList .html) none [1, 2] ∧
    input inlineHash .text (some "a".toList) [] = [1, 0, 0, 0, 0, 0, 0, 0, 97, 255] ∧
    (input inlineHash (.element "p".toList .html) none [1, 2]).length = 36 :=
  ⟨.inr ⟨.inl rfl, ⟨_, rfl⟩, rfl⟩, .inl ⟨⟨_, _, rfl⟩, rfl⟩, by decide +kernel, by decide +kernel⟩

/-- Two documents without patches. -/
example : Comparable (.ofForest [ex "p" [] []]) (.ofForest [ex "p" [] []]) 2 2 ∧
    (match Hotmeal.diff Shape.node (.ofForest [ex "p" [] []]) (.ofForest [ex "p" [] []]) with
      | .ok [] => true
      | _ => false) = true :=
  ⟨comparable_ofForest (by decide +kernel) (by decide +kernel), by decide +kernel⟩

end Hash
end Hotmeal
