import Verif.Model.WebDom
import Verif.Lemmas.ArenaOps
import Verif.Lemmas.WasmOps
import Verif.Props.Slots

set_option autoImplicit false
set_option linter.unusedSectionVars false

/-!
# When the DOM keeps every name

On patches whose names the DOM accepts and does not change, the client does what `Wasm.applyPatches`
does.
-/

namespace Hotmeal

/-! ### The names in a patch -/

mutual
/-- All tags in the content satisfy `T` and all attribute names satisfy `Q`. -/
def InsertContent.All (T : Str → Prop) (Q : QualName → Prop) : InsertContent → Prop
  | .element tag attrs children => T tag ∧ (∀ kv ∈ attrs, Q kv.1) ∧ InsertContent.AllL T Q children
  | .text _ => True
  | .comment _ => True
/-- All tags in the contents satisfy `T` and all attribute names satisfy `Q`. -/
def InsertContent.AllL (T : Str → Prop) (Q : QualName → Prop) : List InsertContent → Prop
  | [] => True
  | c :: cs => InsertContent.All T Q c ∧ InsertContent.AllL T Q cs
end

/-- All tags in the patch satisfy `T` and all attribute names satisfy `Q`. -/
def Patch.All (T : Str → Prop) (Q : QualName → Prop) : Patch → Prop
  | .insertElement _ tag attrs children _ => T tag ∧ (∀ kv ∈ attrs, Q kv.1) ∧ InsertContent.AllL T Q children
  | .setAttribute _ q _ => Q q
  | .removeAttribute _ q => Q q
  | .updateProps _ changes => ∀ c ∈ changes, ∀ q, c.name = .attr q → Q q
  | _ => True

/-- The name has no upper-case ASCII letter. -/
def LowerCase (s : Str) : Prop := s.map lowerAscii = s

/-- A name is kept as it is when it has no capital letter. -/
theorem lowerCase_iff (s : Str) : LowerCase s ↔ ∀ c ∈ s, ¬ ('A' ≤ c ∧ c ≤ 'Z') := by
  have key : ∀ c : Char, lowerAscii c = c ↔ ¬ ('A' ≤ c ∧ c ≤ 'Z') := by
    intro c
    have hA : 'A' ≤ c ↔ 65 ≤ c.toNat := Iff.rfl
    have hZ : c ≤ 'Z' ↔ c.toNat ≤ 90 := Iff.rfl
    rw [hA, hZ]
    unfold lowerAscii
    split
    · next h =>
      have : ∀ n, n < 91 → 65 ≤ n → (Char.ofNat (n + 32)).toNat ≠ n := by decide
      constructor
      · intro e; exact absurd (congrArg Char.toNat e) (this _ (by omega) h.1)
      · intro e; exact absurd h e
    · next h => exact ⟨fun _ => h, fun _ => rfl⟩
  unfold LowerCase
  induction s with
  | nil => simp
  | cons x xs ih => simp only [List.map_cons, List.cons.injEq, List.mem_cons, forall_eq_or_imp, key, ih]

instance (s : Str) : Decidable (LowerCase s) := by unfold LowerCase; infer_instance

namespace WebDom

/-- `createElement` accepts the tag and does not change it. -/
def KeepsTag (dom : WebDom) (tag : Str) : Prop := dom.tagOk tag = true ∧ LowerCase tag

/-- `setAttribute` accepts the name, written with or without an empty prefix, and does not change
it. -/
def KeepsName (dom : WebDom) (q : QualName) : Prop :=
  (dom.attrOk (serName q) = true ∧ LowerCase (serName q)) ∧
  (dom.attrOk (Wasm.domName q) = true ∧ LowerCase (Wasm.domName q))

/-- The DOM accepts all names in the patch and does not change them. -/
abbrev Keeps (dom : WebDom) (P : Patch) : Prop := P.All dom.KeepsTag dom.KeepsName

end WebDom

/-! ### Pages whose HTML elements have lower-case attribute names -/

/-- Attribute names of an HTML element are lower-case. -/
def NodeData.Lower (d : NodeData) : Prop :=
  d.ns = .html → ∀ tag attrs, d.kind = .element tag attrs → ∀ kv ∈ attrs, LowerCase (serName kv.1)

/-- Attribute names of all HTML elements are lower-case. The HTML parser and `setAttribute` both make
them so. -/
def Arena.Lower (A : Arena NodeData) : Prop := ∀ n, (A.data n).Lower

namespace Arena.Lower

variable {A A' : Arena NodeData}

theorem of_data (h : A.Lower) (e : A'.data = A.data) : A'.Lower := fun n => by rw [e]; exact h n

theorem newNode (h : A.Lower) {d : NodeData} (hd : d.Lower) : (A.newNode d).1.Lower := by
  intro n
  rw [Arena.newNode_data]
  split
  · exact hd
  · exact h n

theorem setData (h : A.Lower) {d : NodeData} (hd : d.Lower) (n : Nat) : (A.setData n d).Lower := by
  intro m
  show (Arena.upd A.data n d m).Lower
  unfold Arena.upd
  split
  · exact hd
  · exact h m

theorem detach (h : A.Lower) (n : Nat) : (A.detach n).Lower := h.of_data (Arena.detach_data A n)

theorem appendRaw (h : A.Lower) (p c : Nat) : (A.appendRaw p c).Lower :=
  h.of_data (Arena.detach_data A c)

theorem addChild (h : A.Lower) {d : NodeData} (hd : d.Lower) (p : Nat) : (A.addChild p d).1.Lower :=
  (h.newNode hd).appendRaw _ _

theorem insertBefore (h : A.Lower) {s x : Nat} (e : A.insertBefore s x = .ok A') : A'.Lower := by
  unfold Arena.insertBefore at e
  split at e
  · cases e
  · simp only at e
    split at e
    · cases e; exact h.detach x
    · split at e
      · cases e
      · cases e; exact h.of_data (Arena.detach_data A x)

theorem appendChild (h : A.Lower) {p c : Nat} (e : Wasm.appendChild A p c = .ok A') : A'.Lower := by
  unfold Wasm.appendChild at e
  split at e
  · cases e
  · cases e; exact h.appendRaw _ _

theorem replaceChild (h : A.Lower) {p c o : Nat} (e : Wasm.replaceChild A p c o = .ok A') :
    A'.Lower := by
  unfold Wasm.replaceChild at e
  split at e
  · cases e
  · split at e
    · cases e; exact h
    · obtain ⟨A1, e1, e⟩ := res_bind e
      cases e
      exact (h.insertBefore e1).detach _

end Arena.Lower

theorem NodeData.lower_text (s : Str) (ns : Ns) : NodeData.Lower ⟨.text s, ns⟩ := by
  intro _ tag attrs e; cases e

theorem NodeData.lower_comment (s : Str) (ns : Ns) : NodeData.Lower ⟨.comment s, ns⟩ := by
  intro _ tag attrs e; cases e

namespace Arena.Lower

variable {A A' : Arena NodeData}

theorem replaceByEmpty (h : A.Lower) {n : Nat} (e : Wasm.replaceByEmpty A n = .ok A') : A'.Lower := by
  unfold Wasm.replaceByEmpty at e
  split at e
  · cases e; exact h
  · exact (h.newNode (NodeData.lower_text _ _)).replaceChild e

theorem fillGaps (h : A.Lower) (p k : Nat) : (fillGaps A p k).Lower := by
  induction k generalizing A with
  | zero => exact h
  | succ k ih => exact ih (h.addChild (NodeData.lower_text _ _) p)

theorem insertAtPosition (h : A.Lower) {slots slots' : Slots} {p n pos : Nat} {slot : Option Nat}
    (e : Wasm.insertAtPosition A slots p n pos slot = .ok (A', slots')) : A'.Lower := by
  unfold Wasm.insertAtPosition at e
  split at e
  · obtain ⟨A1, e1, e⟩ := res_bind e
    cases e
    exact h.replaceChild e1
  · obtain ⟨A1, e1, e⟩ := res_bind e
    cases e
    exact (h.fillGaps _ _).appendChild e1

theorem detachAll (h : A.Lower) (l : List Nat) : (detachAll A l).Lower := by
  induction l generalizing A with
  | nil => exact h
  | cons n l ih => exact ih (h.detach n)

theorem setTextContent (h : A.Lower) (n : Nat) (s : Str) : (Wasm.setTextContent A n s).Lower := by
  unfold Wasm.setTextContent
  split
  · exact h.setData (NodeData.lower_text _ _) n
  · exact h.setData (NodeData.lower_comment _ _) n
  · simp only
    split
    · exact h.detachAll _
    · exact (h.detachAll _).addChild (NodeData.lower_text _ _) _
  · exact h

end Arena.Lower

/-- All names of an attribute list are lower-case. -/
def Attrs.Lower (a : Attrs) : Prop := ∀ kv ∈ a, LowerCase (serName kv.1)

theorem Attrs.Lower.setAttribute {a : Attrs} (h : a.Lower) {name : Str} (value : Str)
    (hn : LowerCase name) : Attrs.Lower (Wasm.setAttribute name value a) := by
  induction a with
  | nil =>
    intro kv hkv
    simp only [Wasm.setAttribute, List.mem_singleton] at hkv
    subst hkv
    exact hn
  | cons kv a ih =>
    obtain ⟨k, v⟩ := kv
    simp only [Wasm.setAttribute]
    split
    · intro kv hkv
      rcases List.mem_cons.1 hkv with rfl | hkv
      · exact h (k, v) (by simp)
      · exact h kv (by simp [hkv])
    · intro kv hkv
      rcases List.mem_cons.1 hkv with rfl | hkv
      · exact h _ (by simp)
      · exact ih (fun kv hkv => h kv (by simp [hkv])) kv hkv

theorem Attrs.Lower.removeAttribute {a : Attrs} (h : a.Lower) (name : Str) :
    Attrs.Lower (Wasm.removeAttribute name a) := fun kv hkv => h kv (List.mem_of_mem_eraseP hkv)

namespace WebDom

variable {dom : WebDom}

theorem lowered_eq (ns : Ns) {name : Str} (h : LowerCase name) : lowered ns name = name := by
  unfold lowered
  split
  · exact h
  · rfl

theorem setAttribute_eq {ns : Ns} {name value : Str} {a : Attrs} (h1 : dom.attrOk name = true)
    (h2 : LowerCase name) : dom.setAttribute ns name value a = .ok (Wasm.setAttribute name value a) := by
  unfold setAttribute
  rw [if_pos h1, lowered_eq ns h2]

theorem createWithAttrs_eq {tag : Str} {attrs : Attrs} (ht : dom.KeepsTag tag)
    (ha : ∀ kv ∈ attrs, dom.KeepsName kv.1) :
    dom.createWithAttrs tag attrs = .ok (.element tag (Wasm.setAttrs attrs)) := by
  unfold createWithAttrs
  rw [if_pos ht.1]
  have : ∀ (l : Attrs) (acc : Attrs), (∀ kv ∈ l, dom.KeepsName kv.1) →
      l.foldlM (fun acc kv => dom.setAttribute .html (Wasm.domName kv.1) kv.2 acc) acc =
        Except.ok (ε := Err) (l.foldl (fun acc kv => Wasm.setAttribute (Wasm.domName kv.1) kv.2 acc) acc) := by
    intro l
    induction l with
    | nil => intro acc _; rfl
    | cons kv l ih =>
      intro acc h
      have hk := h kv (by simp)
      rw [List.foldlM_cons, setAttribute_eq hk.2.1 hk.2.2]
      exact ih _ fun kv hkv => h kv (by simp [hkv])
  rw [this attrs [] ha]
  simp only [bind, Except.bind, lowered_eq .html ht.2]
  rfl

mutual
theorem createInsertContent_eq : ∀ (c : InsertContent) (A : Arena NodeData),
    c.All dom.KeepsTag dom.KeepsName → dom.createInsertContent A c = Wasm.createInsertContent A c
  | .element tag attrs children, A, h => by
    simp only [createInsertContent, Wasm.createInsertContent, createWithAttrs_eq h.1 h.2.1]
    rw [appendContents_eq children _ _ h.2.2]
  | .text _, _, _ => rfl
  | .comment _, _, _ => rfl
theorem appendContents_eq : ∀ (cs : List InsertContent) (A : Arena NodeData) (n : Nat),
    InsertContent.AllL dom.KeepsTag dom.KeepsName cs →
      dom.appendContents A n cs = Wasm.appendContents A n cs
  | [], _, _, _ => rfl
  | c :: cs, A, n, h => by
    simp only [appendContents, Wasm.appendContents]
    rw [createInsertContent_eq c A h.1]
    congr 1
    funext x
    congr 1
    funext A1
    exact appendContents_eq cs A1 n h.2
end

theorem lower_setAttrs {attrs : Attrs} (ha : ∀ kv ∈ attrs, dom.KeepsName kv.1) :
    Attrs.Lower (Wasm.setAttrs attrs) := by
  unfold Wasm.setAttrs
  suffices ∀ (l : Attrs) (acc : Attrs), acc.Lower → (∀ kv ∈ l, dom.KeepsName kv.1) →
      Attrs.Lower (l.foldl (fun acc kv => Wasm.setAttribute (Wasm.domName kv.1) kv.2 acc) acc) from
    this attrs [] (by simp [Attrs.Lower]) ha
  intro l
  induction l with
  | nil => intro acc h _; exact h
  | cons kv l ih =>
    intro acc h hl
    exact ih _ (h.setAttribute _ (hl kv (by simp)).2.2) fun kv hkv => hl kv (by simp [hkv])

mutual
theorem lower_createInsertContent : ∀ (c : InsertContent) {A A' : Arena NodeData} {n : Nat}, A.Lower →
    c.All dom.KeepsTag dom.KeepsName → Wasm.createInsertContent A c = .ok (A', n) → A'.Lower
  | .element tag attrs children, A, A', n, hA, h, e => by
    simp only [Wasm.createInsertContent] at e
    obtain ⟨A1, e1, e⟩ := res_bind e
    cases e
    refine lower_appendContents children (hA.newNode ?_) h.2.2 e1
    intro _ tag' attrs' ek
    simp only [NodeKind.element.injEq] at ek
    rw [← ek.2]
    exact lower_setAttrs h.2.1
  | .text _, _, _, _, hA, _, e => by
    simp only [Wasm.createInsertContent, Except.ok.injEq] at e
    rw [Prod.ext_iff] at e
    have e1 : (Arena.newNode _ _).1 = _ := e.1
    simp only at e1
    rw [← e1]
    exact hA.newNode (NodeData.lower_text _ _)
  | .comment _, _, _, _, hA, _, e => by
    simp only [Wasm.createInsertContent, Except.ok.injEq] at e
    rw [Prod.ext_iff] at e
    have e1 : (Arena.newNode _ _).1 = _ := e.1
    simp only at e1
    rw [← e1]
    exact hA.newNode (NodeData.lower_comment _ _)
theorem lower_appendContents : ∀ (cs : List InsertContent) {A A' : Arena NodeData} {n : Nat}, A.Lower →
    InsertContent.AllL dom.KeepsTag dom.KeepsName cs → Wasm.appendContents A n cs = .ok A' → A'.Lower
  | [], A, A', n, hA, _, e => by cases e; exact hA
  | c :: cs, A, A', n, hA, h, e => by
    simp only [Wasm.appendContents] at e
    obtain ⟨⟨A1, m⟩, e1, e⟩ := res_bind e
    obtain ⟨A2, e2, e⟩ := res_bind e
    exact lower_appendContents cs ((lower_createInsertContent c hA h.1 e1).appendChild e2) h.2 e
end

theorem clearAttrs_eq (ns : Ns) {a : Attrs} (h : ns = .html → a.Lower) :
    clearAttrs ns a = Wasm.clearAttrs a := by
  unfold clearAttrs Wasm.clearAttrs
  have : ∀ (l : List Str) (acc : Attrs), (∀ s ∈ l, ns = .html → LowerCase s) →
      l.foldl (fun acc n => removeAttribute ns n acc) acc =
      l.foldl (fun acc n => Wasm.removeAttribute n acc) acc := by
    intro l
    induction l with
    | nil => intros; rfl
    | cons s l ih =>
      intro acc hl
      simp only [List.foldl_cons]
      have : lowered ns s = s := by
        unfold lowered
        split
        · next e => exact hl s (by simp) e
        · rfl
      simp only [removeAttribute, this]
      exact ih _ fun s hs => hl s (by simp [hs])
  refine this _ _ fun s hs e => ?_
  rw [List.mem_eraseDups] at hs
  obtain ⟨kv, hkv, rfl⟩ := List.mem_map.1 hs
  exact h e kv hkv

theorem updateAttrs_eq (ns : Ns) {a : Attrs} (h : ns = .html → a.Lower) {changes : List PropChange}
    (hc : ∀ c ∈ changes, ∀ q, c.name = .attr q → dom.KeepsName q) :
    dom.updateAttrs ns a changes = .ok (Wasm.updateAttrs a changes) := by
  unfold updateAttrs Wasm.updateAttrs
  rw [clearAttrs_eq ns h]
  generalize Wasm.clearAttrs a = acc
  induction changes generalizing acc with
  | nil => rfl
  | cons c changes ih =>
    rw [List.foldlM_cons, List.foldl_cons]
    have ih' := ih fun c hc' => hc c (by simp [hc'])
    cases e : c.name with
    | text => exact ih' acc
    | attr q =>
      have hk := (hc c (by simp) q e).1
      simp only
      rw [setAttribute_eq hk.1 hk.2]
      exact ih' _

theorem lower_updateAttrs {a : Attrs} (h : a.Lower) {changes : List PropChange}
    (hc : ∀ c ∈ changes, ∀ q, c.name = .attr q → dom.KeepsName q) :
    Attrs.Lower (Wasm.updateAttrs a changes) := by
  unfold Wasm.updateAttrs
  have hcl : Attrs.Lower (Wasm.clearAttrs a) := by
    unfold Wasm.clearAttrs
    generalize (a.map fun kv => serName kv.1).eraseDups = l
    suffices ∀ acc : Attrs, acc.Lower →
        Attrs.Lower (l.foldl (fun acc n => Wasm.removeAttribute n acc) acc) from this a h
    induction l with
    | nil => intro acc h; exact h
    | cons s l ih => intro acc h; exact ih _ (h.removeAttribute s)
  generalize Wasm.clearAttrs a = acc at hcl
  induction changes generalizing acc with
  | nil => exact hcl
  | cons c changes ih =>
    rw [List.foldl_cons]
    refine ih (fun c hc' => hc c (by simp [hc'])) _ ?_
    cases e : c.name with
    | text => exact hcl
    | attr q => exact hcl.setAttribute _ (hc c (by simp) q e).1.2

/-! ### Patches -/

theorem applyPatch_eq {root : Nat} {A : Arena NodeData} {slots : Slots} {P : Patch} (hA : A.Lower)
    (hP : dom.Keeps P) : dom.applyPatch root A slots P = Wasm.applyPatch root A slots P := by
  cases P with
  | setAttribute path name value =>
    simp only [applyPatch, Wasm.applyPatch]
    congr 1
    funext n
    generalize A.data n = d
    rcases d with ⟨k, ns⟩
    cases k with
    | element tag attrs =>
      simp only
      rw [setAttribute_eq hP.2.1 hP.2.2]
      rfl
    | _ => rfl
  | removeAttribute path name =>
    simp only [applyPatch, Wasm.applyPatch]
    congr 1
    funext n
    generalize A.data n = d
    rcases d with ⟨k, ns⟩
    cases k with
    | element tag attrs => simp only [removeAttribute, lowered_eq _ hP.2.2]
    | _ => rfl
  | insertElement at_ tag attrs children slot =>
    simp only [applyPatch, Wasm.applyPatch]
    rw [createInsertContent_eq (.element tag attrs children) A hP]
  | updateProps path changes =>
    simp only [applyPatch, Wasm.applyPatch]
    congr 1
    funext n
    have key : ∀ A : Arena NodeData, A.Lower →
        (match A.data n with
          | ⟨.element tag attrs, ns⟩ => do
            let attrs ← dom.updateAttrs ns attrs changes
            .ok (A.setData n ⟨.element tag attrs, ns⟩, slots)
          | _ => .ok (A, slots) : Res (Arena NodeData × Slots)) =
        (match A.data n with
          | ⟨.element tag attrs, ns⟩ =>
            .ok (A.setData n ⟨.element tag (Wasm.updateAttrs attrs changes), ns⟩, slots)
          | _ => .ok (A, slots)) := by
      intro A hA
      have := hA n
      generalize A.data n = d at this
      rcases d with ⟨k, ns⟩
      cases k with
      | element tag attrs =>
        simp only
        rw [updateAttrs_eq ns (fun e => this e tag attrs rfl) hP]
        rfl
      | _ => rfl
    generalize changes.find? (fun c => decide (c.name = .text)) = o
    rcases o with _ | ⟨_, _ | t⟩
    · exact key _ hA
    · exact key _ hA
    · exact key _ (hA.setTextContent n t)
  | _ => rfl

theorem lower_applyPatch {root : Nat} {A A' : Arena NodeData} {slots slots' : Slots} {P : Patch}
    (hA : A.Lower) (hP : dom.Keeps P) (e : Wasm.applyPatch root A slots P = .ok (A', slots')) :
    A'.Lower := by
  cases P with
  | setText path s =>
    obtain ⟨n, _, e⟩ := res_bind e
    cases e
    exact hA.setTextContent n s
  | setAttribute path name value =>
    obtain ⟨n, _, e⟩ := res_bind e
    have := hA n
    generalize A.data n = d at this e
    rcases d with ⟨k, ns⟩
    cases k with
    | element tag attrs =>
      cases e
      refine hA.setData ?_ n
      intro h tag' attrs' ek
      cases ek
      exact Attrs.Lower.setAttribute (this h tag attrs rfl) _ hP.2.2
    | _ => cases e
  | removeAttribute path name =>
    obtain ⟨n, _, e⟩ := res_bind e
    have := hA n
    generalize A.data n = d at this e
    rcases d with ⟨k, ns⟩
    cases k with
    | element tag attrs =>
      cases e
      refine hA.setData ?_ n
      intro h tag' attrs' ek
      cases ek
      exact Attrs.Lower.removeAttribute (this h tag attrs rfl) _
    | _ => cases e
  | remove path =>
    match path, e with
    | [s], e =>
      simp only [Wasm.applyPatch] at e
      split at e
      · obtain ⟨A1, e1, e⟩ := res_bind e
        cases e
        exact hA.replaceByEmpty e1
      · cases e; exact hA
    | s :: i :: is, e =>
      obtain ⟨n, _, e⟩ := res_bind e
      obtain ⟨A1, e1, e⟩ := res_bind e
      cases e
      exact hA.replaceByEmpty e1
  | insertElement at_ tag attrs children slot =>
    obtain ⟨⟨p, pos⟩, _, e⟩ := res_bind e
    obtain ⟨⟨A1, n⟩, e1, e⟩ := res_bind e
    exact (lower_createInsertContent (.element tag attrs children) hA hP e1).insertAtPosition e
  | insertText at_ s slot =>
    obtain ⟨⟨p, pos⟩, _, e⟩ := res_bind e
    exact (hA.newNode (NodeData.lower_text _ _)).insertAtPosition e
  | insertComment at_ s slot =>
    obtain ⟨⟨p, pos⟩, _, e⟩ := res_bind e
    exact (hA.newNode (NodeData.lower_comment _ _)).insertAtPosition e
  | updateProps path changes =>
    obtain ⟨n, _, e⟩ := res_bind e
    have key : ∀ A : Arena NodeData, A.Lower →
        (match A.data n with
          | ⟨.element tag attrs, ns⟩ =>
            .ok (A.setData n ⟨.element tag (Wasm.updateAttrs attrs changes), ns⟩, slots)
          | _ => .ok (A, slots) : Res (Arena NodeData × Slots)) = .ok (A', slots') → A'.Lower := by
      intro A hA e
      have := hA n
      generalize A.data n = d at this e
      rcases d with ⟨k, ns⟩
      cases k with
      | element tag attrs =>
        cases e
        refine hA.setData ?_ n
        intro h tag' attrs' ek
        cases ek
        exact lower_updateAttrs (this h tag attrs rfl) hP
      | _ => cases e; exact hA
    simp only at e
    generalize changes.find? (fun c => decide (c.name = .text)) = o at e
    rcases o with _ | ⟨_, _ | t⟩
    · exact key _ hA e
    · exact key _ hA e
    · exact key _ (hA.setTextContent n t) e
  | move from_ to slot =>
    simp only [Wasm.applyPatch] at e
    split at e
    · split at e
      · cases e
      · obtain ⟨⟨n, A1, s1⟩, e1, e⟩ := res_bind e
        cases e1
        obtain ⟨⟨p, pos⟩, _, e⟩ := res_bind e
        exact hA.insertAtPosition e
    · obtain ⟨n', _, e⟩ := res_bind e
      obtain ⟨A2, e2, e⟩ := res_bind e
      obtain ⟨⟨n, A1, s1⟩, e1, e⟩ := res_bind e
      cases e1
      obtain ⟨⟨p, pos⟩, _, e⟩ := res_bind e
      exact (hA.replaceByEmpty e2).insertAtPosition e
  | opaqueChanged path s =>
    obtain ⟨n, _, e⟩ := res_bind e
    obtain ⟨m, _, e⟩ := res_bind e
    cases e
    exact hA

theorem applyLoop_eq {root : Nat} {ps : List Patch} (hP : ∀ P ∈ ps, dom.Keeps P) :
    ∀ {A : Arena NodeData} {slots : Slots}, A.Lower →
      dom.applyLoop root A slots ps = Wasm.applyLoop root A slots ps ∧
      ∀ A' slots', Wasm.applyLoop root A slots ps = .ok (A', slots') → A'.Lower := by
  induction ps with
  | nil => intro A slots hA; exact ⟨rfl, fun A' s' e => by cases e; exact hA⟩
  | cons P ps ih =>
    intro A slots hA
    have hk := hP P (by simp)
    simp only [applyLoop, Wasm.applyLoop]
    rw [applyPatch_eq hA hk]
    cases e : Wasm.applyPatch root A slots P with
    | error x => exact ⟨rfl, fun _ _ h => by cases h⟩
    | ok w =>
      obtain ⟨A1, s1⟩ := w
      exact ih (fun P hP' => hP P (by simp [hP'])) (lower_applyPatch hA hk e)

theorem applyPatches_eq {root : Nat} {A : Arena NodeData} {ps : List Patch} (hA : A.Lower)
    (hP : ∀ P ∈ ps, dom.Keeps P) : dom.applyPatches root A ps = Wasm.applyPatches root A ps := by
  unfold applyPatches Wasm.applyPatches
  rw [(applyLoop_eq hP hA).1]

theorem lower_applyPatches {root : Nat} {A A' : Arena NodeData} {ps : List Patch} (hA : A.Lower)
    (hP : ∀ P ∈ ps, dom.Keeps P) (e : Wasm.applyPatches root A ps = .ok A') : A'.Lower := by
  unfold Wasm.applyPatches at e
  obtain ⟨⟨A1, s1⟩, e1, e⟩ := res_bind e
  cases e
  exact (applyLoop_eq hP hA).2 _ _ e1

end WebDom
end Hotmeal
