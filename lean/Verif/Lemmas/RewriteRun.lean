import Verif.Props.Agreement
import Verif.Lemmas.Forget
import Verif.Lemmas.FanRun

set_option autoImplicit false
set_option linter.unusedSectionVars false

/-!
# Regular patches can be carried out as rewriting of trees
-/

namespace Hotmeal

/-- Outside `F`, only elements have children. -/
def Arena.Parted (F : Nat → Prop) (A : Arena NodeData) : Prop :=
  ∀ m, ¬ F m → A.children m ≠ [] → (A.data m).kind.IsElement

namespace Parted

variable {A A' : Arena NodeData} {F : Nat → Prop}

theorem newNode (hw : A.WF) (h : A.Parted F) (d : NodeData) : (A.newNode d).1.Parted F := by
  intro m hm hc
  rw [hw.newNode_children] at hc
  have hlt : m < A.next := by
    apply Classical.byContradiction
    intro hge
    exact hc (hw.children_ge (by omega))
  rw [Arena.newNode_data, if_neg (by omega)]
  exact h m hm hc

theorem setData (h : A.Parted F) (n : Nat) (d : NodeData)
    (hd : (A.data n).kind.IsElement → d.kind.IsElement) : (A.setData n d).Parted F := by
  intro m hm hc
  have := h m hm hc
  simp only [Arena.setData, Arena.upd_apply]
  split
  · next e => exact hd (e ▸ this)
  · exact this

theorem replaced {n p : Nat} {d : NodeData} (hw : A.WF) (h : A.Parted F) (hp : A.parent n = some p)
    (hr : A.Replaced A' n p d) : A'.Parted F := by
  intro m hm hc
  have hlt := (hw.lt_of_parent _ _ hp).2
  rw [hr.children] at hc
  by_cases e : m = p
  · subst e
    rw [hr.data, if_neg (by omega)]
    refine h m hm fun e0 => ?_
    rw [if_pos rfl, e0] at hc
    exact hc rfl
  · rw [if_neg e] at hc
    have hne : m ≠ A.next := fun e1 => hc (hw.children_ge (by omega))
    rw [hr.data, if_neg hne]
    exact h m hm hc

theorem put {x p pos occ : Nat} (h : A.Parted F) (hd : DPut A A' x p pos occ) : A'.Parted F := by
  intro m hm hc
  rw [hd.data]
  refine h m hm fun e0 => ?_
  rw [hd.children] at hc
  split at hc
  · next e =>
    subst e
    rw [e0] at hc
    exact hc rfl
  · exact hc e0

theorem app {x p pos : Nat} (hw : A.WF) (h : A.Parted F) (hp : p < A.next) (he : (A.data p).kind.IsElement)
    (hd : DApp A A' x p pos) : A'.Parted F := by
  intro m hm hc
  by_cases e : m = p
  · subst e
    rw [hd.data, if_neg (by omega)]
    exact he
  · rw [hd.children_ne m e] at hc
    have hlt : m < A.next := by
      apply Classical.byContradiction
      intro hge
      exact hc (hw.children_ge (by omega))
    rw [hd.data, if_neg (by omega)]
    exact h m hm hc

mutual
theorem create : ∀ (c : InsertContent) {A A' : Arena NodeData} {m : Nat}, A.WF → A.Parted F →
    createInsertContent A c = .ok (A', m) → A'.Parted F
  | .element tag attrs cs, A, A', m, hw, h, e => by
    have hn := Grows.newNode hw ⟨.element tag attrs, .html⟩
    simp only [createInsertContent, Arena.newNode_snd, bind, Except.bind] at e
    cases e1 : appendInsertContents (A.newNode ⟨.element tag attrs, .html⟩).1 A.next cs with
    | error => rw [e1] at e; cases e
    | ok B =>
      rw [e1] at e
      cases e
      exact createL cs hn.wf (by simp) (newNode hw h _) (by rw [Arena.newNode_data, if_pos rfl]; exact ⟨_, _, rfl⟩) e1
  | .text s, A, A', m, hw, h, e => by cases e; exact newNode hw h _
  | .comment s, A, A', m, hw, h, e => by cases e; exact newNode hw h _

theorem createL : ∀ (cs : List InsertContent) {A A' : Arena NodeData} {n : Nat}, A.WF → n < A.next → A.Parted F →
    (A.data n).kind.IsElement → appendInsertContents A n cs = .ok A' → A'.Parted F
  | [], A, A', n, _, _, h, _, e => by cases e; exact h
  | c :: cs, A, A', n, hw, hn, h, he, e => by
    obtain ⟨A1, m, e1, h1, hm, hm', hmp, htm, hf1⟩ := createInsertContent_tree c A hw
    have hle := h1.le
    have hanc : ¬ A1.Anc m n := by
      intro ha
      have := desc_new hw h1.parent hm ha
      omega
    have hP1 := create c hw h e1
    have e2 := h1.wf.append_ok hanc
    have hw2 := h1.wf.appendRaw (p := n) (c := m) (by omega) hm' hanc
    have er := Arena.appendRaw_of_parent_none (p := n) hmp
    have hda2 : (A1.appendRaw n m).data = A1.data := by rw [er]
    have hd1 : (A1.data n).kind.IsElement := by rw [h1.data n hn]; exact he
    simp only [appendInsertContents, e1, e2, bind, Except.bind] at e
    refine createL cs hw2 (by rw [er]; show n < A1.next; omega) ?_ (by rw [hda2]; exact hd1) e
    intro i hi hc
    rw [hda2]
    by_cases ei : i = n
    · rw [ei]; exact hd1
    · refine hP1 i hi fun e0 => hc ?_
      rw [er]
      show Arena.upd A1.children n _ i = _
      rw [Arena.upd_apply, if_neg ei, e0]
end

/-- One regular patch. -/
theorem regular {J : Nat → Prop} {parse : Str → Document} {D D' : Arena NodeData}
    {slots slots' : Slots} {root : Nat} {P : Patch} (hr : Regular J D slots P) (hw : D.WF)
    (h0 : slots 0 = some root) (hK : D.Parted F)
    (e : Hotmeal.applyPatch parse D slots P = .ok (D', slots')) : D'.Parted F := by
  have hL := lawful_native parse root
  cases hr with
  | setText q n s ns t hq hd =>
    rcases hd with hd | hd
    · rw [hL.setText_text _ _ _ _ _ _ _ h0 hq hd] at e
      cases e
      exact setData hK _ _ fun h => by rw [hd] at h; obtain ⟨_, _, h⟩ := h; cases h
    · rw [hL.setText_comment _ _ _ _ _ _ _ h0 hq hd] at e
      cases e
      exact setData hK _ _ fun h => by rw [hd] at h; obtain ⟨_, _, h⟩ := h; cases h
  | updateProps q n tag attrs ns changes hq hd hk hn ht =>
    rw [hL.updateProps _ _ _ _ _ _ _ _ h0 hq hd hk hn ht] at e
    cases e
    exact setData hK _ _ fun _ => ⟨_, _, rfl⟩
  | remove q n p hq hl hp =>
    obtain ⟨D2, e2, h2⟩ := hL.remove _ _ _ _ _ h0 hw hq hl hp
    rw [e2] at e; cases e
    exact replaced hw hK hp h2
  | removeFree k n hk hsl hn hp =>
    obtain ⟨D2, s2, e2, h2, h3⟩ := hL.removeFree _ _ _ _ h0 hw hk hsl hn hp
    rw [e2] at e; cases e
    rcases h2 with rfl | rfl
    · exact hK
    · exact newNode hw hK _
  | insert q nk cs p pos slot hc hcs hq he hpl ha =>
    have hD1 : ∃ D1, Created D D1 ⟨nk, .html⟩ ∧ D1.Parted F ∧ insertAt D1 slots (q ++ [pos]) D.next slot =
        .ok (D', slots') := by
      cases nk with
      | document => exact hc.elim
      | element tag attrs =>
        obtain ⟨D1, e1, h1, _⟩ := hw.createdContent tag attrs cs
        refine ⟨D1, h1, ?_, ?_⟩
        · exact createL cs (hw.newNode _) (by simp) (newNode hw hK _)
            (by rw [Arena.newNode_data, if_pos rfl]; exact ⟨_, _, rfl⟩) e1
        · simp only [insertPatch, Hotmeal.applyPatch, bind, Except.bind, Arena.newNode_snd, e1] at e
          exact e
      | text s =>
        refine ⟨_, hw.created _, newNode hw hK _, ?_⟩
        simp only [insertPatch, Hotmeal.applyPatch, Arena.newNode_snd] at e
        exact e
      | comment s =>
        refine ⟨_, hw.created _, newNode hw hK _, ?_⟩
        simp only [insertPatch, Hotmeal.applyPatch, Arena.newNode_snd] at e
        exact e
    obtain ⟨D1, h1, hK1, e⟩ := hD1
    have hch := h1.children p hpl
    rcases ha with ⟨k, occ, rfl, hk, hocc⟩ | ⟨rfl, ha⟩
    · obtain ⟨D2, e2, h2⟩ := insertAt_put (k := k) h1.wf (h1.navigate hw hq) (by rw [hch]; exact hocc)
        h1.next_lt h1.self (h1.not_anc hw hpl)
      rw [e2] at e; cases e
      exact put hK1 h2
    · obtain ⟨D2, e2, h2⟩ := insertAt_app (pos := pos) h1.wf (h1.navigate hw hq) (Nat.lt_trans hpl h1.next_lt)
        h1.next_lt h1.self (h1.not_anc hw hpl)
      rw [e2] at e; cases e
      exact app h1.wf hK1 (Nat.lt_trans hpl h1.next_lt) (by rw [h1.data p hpl]; exact he) h2
  | move q n q' p pos slot hq hn hc hm =>
    obtain ⟨D1, s1, ht, h1, h2⟩ := hL.move _ _ _ _ h0 hw hq hn hc
    obtain ⟨m1, m2, m3, m4, m5⟩ := hm D1 s1 ht
    have hD1 : D1.Parted F ∧ D1.WF := by
      rcases ht with ⟨_, rfl, hr⟩ | ⟨k, rfl, rfl, hs1⟩
      · rcases hc with ⟨_, p0, hp0⟩ | ⟨hl, _⟩
        · exact ⟨replaced hw hK hp0 (hr p0 hp0), (hr p0 hp0).wf⟩
        · omega
      · exact ⟨hK, hw⟩
    rcases m5 with ⟨k, occ, rfl, hk, hocc⟩ | ⟨rfl, ha⟩
    · obtain ⟨D2, e2, h3⟩ := h1 q' p pos occ k hk m1 m2 m3 m4 hocc
      rw [e2] at e; cases e
      exact put hD1.1 h3
    · obtain ⟨D2, e2, h3⟩ := h2 q' p pos m1 m2 m3 m4
      rw [e2] at e; cases e
      exact app hD1.2 hD1.1 m3 m2 h3

end Parted

/-- The conditions of `Patch.Neutral` other than those on names. -/
def Patch.Roomy (σ : Store) : Patch → Prop
  | .insertElement at_ _ attrs _ slot => σ.Room at_ slot ∧ attrs.keys.Nodup
  | .insertText at_ _ slot => σ.Room at_ slot
  | .insertComment at_ _ slot => σ.Room at_ slot
  | .move from_ to_ slot => ∀ t σ', σ.take from_ = some (t, σ') → σ'.Room to_ slot
  | .updateProps _ changes => (changes.map PropChange.name).Nodup ∧ textChange changes = none
  | .opaqueChanged .. => False
  | .setAttribute .. => False
  | .removeAttribute .. => False
  | _ => True

theorem Patch.Roomy.neutral {N : QualName → Prop} {σ : Store} {P : Patch} (h : P.Roomy σ) (hn : P.Names N) :
    P.Neutral N σ := by
  cases P with
  | insertElement at_ tag attrs cs slot => exact ⟨h.1, hn.1, h.2, hn.2⟩
  | insertText at_ s slot => exact h
  | insertComment at_ s slot => exact h
  | remove path => trivial
  | move from_ to_ slot => exact h
  | setText path s => trivial
  | setAttribute path name v => exact h.elim
  | removeAttribute path name => exact h.elim
  | updateProps path changes => exact ⟨h.1, hn, fun _ _ _ _ => h.2⟩
  | opaqueChanged path s => exact h.elim

theorem Patch.Roomy.not_report {σ : Store} {P : Patch} (h : P.Roomy σ) : P.isReport = false := by
  cases P with
  | opaqueChanged path s => exact h.elim
  | _ => rfl

/-- Every patch has room when its turn comes. -/
def Dialect.Roomy (d : Dialect) : Store → List Patch → Prop
  | _, [] => True
  | σ, P :: ps => P.Roomy σ ∧ ∀ σ', d.apply σ P = some σ' → d.Roomy σ' ps

theorem Dialect.Roomy.neutral {d : Dialect} {N : QualName → Prop} : ∀ {ps : List Patch} {σ : Store}, d.Roomy σ ps →
    (∀ P ∈ ps, P.Names N) → d.Neutral N σ ps
  | [], _, _, _ => trivial
  | _ :: _, _, h, hn => ⟨h.1.neutral (hn _ List.mem_cons_self), fun σ' e =>
      (h.2 σ' e).neutral fun P hP => hn P (List.mem_cons_of_mem _ hP)⟩

/-- What the library makes of opaque content does not matter for lists without reports. -/
theorem Dialect.library_apply (c c' : Str → List Html) {σ : Store} {P : Patch} (h : P.isReport = false) :
    (Dialect.library c).apply σ P = (Dialect.library c').apply σ P := by
  have hm : ∀ cs, (Dialect.library c).madeL cs = (Dialect.library c').madeL cs := fun cs => by
    rw [madeL_eq (fun _ => rfl), madeL_eq (fun _ => rfl)]
  cases P with
  | opaqueChanged path s => cases h
  | insertElement at_ tag attrs cs slot => simp only [Dialect.apply, hm]; rfl
  | _ => rfl

theorem Dialect.library_run (c c' : Str → List Html) : ∀ {ps : List Patch} {σ : Store},
    (∀ P ∈ ps, P.isReport = false) → (Dialect.library c).run σ ps = (Dialect.library c').run σ ps
  | [], _, _ => rfl
  | P :: ps, σ, h => by
    simp only [Dialect.run]
    rw [Dialect.library_apply c c' (h P List.mem_cons_self)]
    cases (Dialect.library c').apply σ P with
    | none => rfl
    | some σ' => exact Dialect.library_run c c' fun Q hQ => h Q (List.mem_cons_of_mem _ hQ)

theorem Dialect.library_neutral (c c' : Str → List Html) {N : QualName → Prop} : ∀ {ps : List Patch} {σ : Store},
    (Dialect.library c).Neutral N σ ps → (Dialect.library c').Neutral N σ ps
  | [], _, _ => trivial
  | P :: ps, σ, h => ⟨h.1, fun σ' e => by
      have hr : P.isReport = false := by
        have := h.1
        cases P with
        | opaqueChanged => exact this.elim
        | _ => rfl
      exact Dialect.library_neutral c c' (h.2 σ' (by rw [Dialect.library_apply c c' hr]; exact e))⟩

namespace Rep

variable {A0 A A' : Arena NodeData} {b : Nat} {F : Nat → Prop} {slots slots' : Slots}
  {σ σ' : Store} {hand : Option (Nat × Html)}

/-- Below a live node there is nothing of the outside. -/
theorem get?_of_navLoop (hw : A.WF) (he : A.Parted F) (hc : ∀ n c, ¬ F n → A.parent c = some n → ¬ F c) :
    ∀ (q : List Nat) {r n : Nat}, ¬ F r → navLoop A r q = .ok n → (A.tree r).get? q = some (A.tree n)
  | [], r, n, _, e => by
    simp only [navLoop, Except.ok.injEq] at e
    subst e
    cases A.tree r <;> rfl
  | i :: q, r, n, hr, e => by
    simp only [navLoop] at e
    cases ec : (A.children r)[i]? with
    | none => rw [ec] at e; cases e
    | some c =>
      rw [ec] at e
      have hm := List.mem_of_getElem? ec
      obtain ⟨tag, attrs, hk⟩ := he r hr (List.ne_nil_of_mem hm)
      rw [hw.tree_eq, hk]
      simp only [Html.ofKind, Html.get?, Arena.forest, List.getElem?_map, ec, Option.map_some]
      exact get?_of_navLoop hw he hc q (hc r c hr ((hw.mem_iff _ _).1 hm)) e

theorem closed (hF : Fence A0 b F) (h : Rep A0 b F A slots σ hand) :
    ∀ n c, ¬ F n → A.parent c = some n → ¬ F c := by
  intro n c hn hp hcF
  rw [h.grove.parent c hcF] at hp
  exact hn (hF.up c n hcF hp)

/-- Navigation finds the tree of the node. -/
theorem find_of_navigate (hF : Fence A0 b F) (h : Rep A0 b F A slots σ hand) (he : A.Parted F)
    (hd : ∀ s, slots s ≠ none → σ s ≠ none) {path : Path} {n : Nat} (hn : navigate A slots path = .ok n) :
    σ.find path = some (A.tree n) := by
  cases path with
  | nil => simp [navigate] at hn
  | cons s q =>
    simp only [navigate] at hn
    cases es : slots s with
    | none => rw [es] at hn; cases hn
    | some r =>
      rw [es] at hn
      cases et : σ s with
      | none => exact absurd et (hd s (by rw [es]; simp))
      | some t =>
        obtain ⟨r', h1, h2⟩ := h.root s t et
        rw [es] at h1; cases h1
        simp only [Store.find, et, ← h2]
        exact get?_of_navLoop h.grove.wf he (h.closed hF) q (h.grove.out r (live_slot et es)) hn

/-- There is room, and the tree can be put there. -/
theorem insertable (hF : Fence A0 b F) (h : Rep A0 b F A slots σ hand) (he : A.Parted F)
    (hd : ∀ s, slots s ≠ none → σ s ≠ none) {J : Nat → Prop} (hJ : ∀ n, ¬ J n) {q : Path} {p pos : Nat}
    {slot : Option Nat} (hq : navigate A slots q = .ok p) (hp : (A.data p).kind.IsElement)
    (ha : AtPos J A p pos slot) (x : Html) :
    σ.Room (q ++ [pos]) slot ∧ ∃ σ', σ.insert true (q ++ [pos]) x slot = some σ' ∧
      (∀ s, σ' s ≠ none ↔ σ s ≠ none ∨ slot = some s) := by
  have hf := h.find_of_navigate hF he hd hq
  obtain ⟨tag, attrs, hk⟩ := hp
  rw [h.grove.wf.tree_eq, hk] at hf
  simp only [Html.ofKind] at hf
  have hwr : ∀ u s, (σ.write q u) s ≠ none ↔ σ s ≠ none := by
    intro u s
    cases q with
    | nil => rfl
    | cons k q =>
      simp only [Store.write, Store.slot]
      split
      · next e => subst e; cases σ s <;> simp
      · rfl
  have hlen : (A.forest p).length = (A.children p).length := by simp [Arena.forest]
  rcases ha with ⟨k, occ, rfl, hk0, hocc⟩ | ⟨rfl, ha⟩
  · refine ⟨.inl (by simp), ?_⟩
    have e1 : (A.forest p)[pos]? = some (A.tree occ) := by simp [Arena.forest, hocc]
    refine ⟨_, by
      unfold Store.insert
      rw [if_neg (by simpa using hk0)]
      simp only [List.getLast?_concat, List.dropLast_concat, hf, e1]
      rfl, fun s => ?_⟩
    simp only [Store.slot]
    split
    · next e => subst e; simp
    · next e =>
      rw [hwr]
      constructor
      · exact .inl
      · rintro (h1 | h1)
        · exact h1
        · cases h1; exact absurd rfl e
  · have hle : (A.children p).length ≤ pos := Fan.atPos hJ (.inr ⟨rfl, ha⟩)
    refine ⟨.inr ?_, ?_⟩
    · intro pos' tag' attrs' cs' h1 h2
      rw [List.getLast?_concat] at h1; cases h1
      rw [List.dropLast_concat, hf] at h2
      cases h2
      omega
    · refine ⟨_, by
        unfold Store.insert
        rw [if_neg (by simp)]
        simp only [List.getLast?_concat, List.dropLast_concat, hf]
        rfl, fun s => ?_⟩
      simp only [hwr]
      simp

theorem forget_zero (slots : Slots) (P : Patch) (s' : Slots) : forget slots P s' 0 = s' 0 := by
  unfold forget
  split
  · next k _ _ =>
    split
    · rfl
    · next hk =>
      have hk' : ¬ 0 = k := fun e => hk e.symm
      simp [hk']
  · next k =>
    split
    · rfl
    · next hk => rw [Arena.upd_apply, if_neg (fun e => hk e.symm)]
  · rfl

theorem write_some (σ : Store) (path : Path) (u : Html) (s : Nat) : (σ.write path u) s ≠ none ↔ σ s ≠ none := by
  cases path with
  | nil => rfl
  | cons k q =>
    simp only [Store.write, Store.slot]
    split
    · next e => subst e; cases σ s <;> simp
    · rfl

theorem forget_long {slots s' : Slots} {q : Path} (hl : 1 < q.length) :
    forget slots (.remove q) s' = s' ∧ ∀ to_ sl, forget slots (.move q to_ sl) s' = s' := by
  match q, hl with
  | a :: b :: c, _ => exact ⟨rfl, fun _ _ => rfl⟩

theorem take_long {q : Path} {t : Html} (hl : 1 < q.length) (hf : σ.find q = some t) :
    σ.take q = some (t, σ.write q (.text [])) := by
  match q, hl with
  | a :: b :: c, _ => simp only [Store.take, hf]

/-- A regular patch can be carried out as rewriting of trees, there is room for what it puts somewhere, and the
document is represented by the rewritten trees again. -/
theorem regular_step (hF : Fence A0 b F) {parse : Str → Document} (hp : ∀ s, (parse s).arena.Sound)
    {J : Nat → Prop} (hJ : ∀ n, ¬ J n) (h : Rep A0 b F A slots σ none) (he : A.Parted F)
    (hd : ∀ s, slots s ≠ none → σ s ≠ none) {P : Patch} (hr : Regular J A slots P)
    (hs : forgetStep parse A slots P = .ok (A', slots')) :
    ∃ σ', (Dialect.library (parsedContent parse)).apply σ P = some σ' ∧ Rep A0 b F A' slots' σ' none ∧
      A'.Parted F ∧ (∀ s, slots' s ≠ none → σ' s ≠ none) ∧ P.Roomy σ := by
  have hA := h.grove.wf
  have h0 := h.zero
  have hL := lawful_forget parse b
  have hfind : ∀ {path : Path} {n : Nat}, navigate A slots path = .ok n → σ.find path = some (A.tree n) :=
    fun hn => h.find_of_navigate hF he hd hn
  have key : ∃ σ', (Dialect.library (parsedContent parse)).apply σ P = some σ' ∧ P.Roomy σ ∧
      (∀ s, slots' s ≠ none → σ' s ≠ none) ∧
      (∀ s'', applyPatch parse A slots P = .ok (A', s'') → ∀ s, σ' s ≠ none → forget slots P s'' s = s'' s) := by
    cases hr with
    | setText q n s ns t hq hd' =>
      have hf := hfind hq
      rw [hA.tree_eq] at hf
      rcases hd' with hd' | hd'
      · rw [hL.setText_text _ _ _ _ _ _ _ h0 hq hd'] at hs
        cases hs
        rw [hd'] at hf
        simp only [Html.ofKind] at hf
        exact ⟨_, by simp only [Dialect.apply, hf]; rfl, trivial, fun s hs => (write_some _ _ _ _).2 (hd s hs),
          fun _ _ _ _ => rfl⟩
      · rw [hL.setText_comment _ _ _ _ _ _ _ h0 hq hd'] at hs
        cases hs
        rw [hd'] at hf
        simp only [Html.ofKind] at hf
        exact ⟨_, by simp only [Dialect.apply, hf]; rfl, trivial, fun s hs => (write_some _ _ _ _).2 (hd s hs),
          fun _ _ _ _ => rfl⟩
    | updateProps q n tag attrs ns changes hq hd' hk hn ht =>
      have hf := hfind hq
      rw [hA.tree_eq, hd'] at hf
      simp only [Html.ofKind] at hf
      rw [hL.updateProps _ _ _ _ _ _ _ _ h0 hq hd' hk hn ht] at hs
      cases hs
      refine ⟨_, by simp only [Dialect.apply, hf]; rfl, ⟨hn, ?_⟩, fun s hs => (write_some _ _ _ _).2 (hd s hs),
        fun _ _ _ _ => rfl⟩
      unfold textChange
      rw [List.find?_eq_none.2]
      · rfl
      · intro c hc hcn
        exact ht (List.mem_map.2 ⟨c, hc, by simpa using hcn⟩)
    | remove q n p hq hl hpar =>
      obtain ⟨D2, e2, h2⟩ := hL.remove _ _ _ _ _ h0 hA hq hl hpar
      rw [e2] at hs; cases hs
      exact ⟨_, by simp only [Dialect.apply, take_long hl (hfind hq)]; rfl, trivial,
        fun s hs => (write_some _ _ _ _).2 (hd s hs), fun s'' _ s _ => by rw [(forget_long hl).1]⟩
    | removeFree k n hk hsl hn hpar =>
      rw [forgetStep_removeFree parse hA hk hsl hn hpar] at hs
      cases hs
      have hf := hfind (path := [k]) (n := n) (by simp only [navigate, hsl, navLoop])
      refine ⟨σ.slot k none, by simp only [Dialect.apply, Store.take, hf, if_neg hk, Option.map_some], trivial, ?_, ?_⟩
      · intro s hs
        rw [Arena.upd_apply] at hs
        simp only [Store.slot]
        split
        · next e => rw [if_pos e] at hs; exact absurd rfl hs
        · next e => rw [if_neg e] at hs; exact hd s hs
      · intro s'' _ s hs
        simp only [Store.slot] at hs
        simp only [forget, if_neg hk, Arena.upd_apply]
        split
        · next e => rw [if_pos e] at hs; exact absurd rfl hs
        · rfl
    | insert q nk cs p pos slot hc hcs hq hpe hpl ha =>
      obtain ⟨D1, _, _, _, h1, h2⟩ := hL.insert _ _ q nk cs p h0 hA hc hcs hq hpe hpl
      have hsl : ∀ s, slots' s ≠ none → slots s ≠ none ∨ slot = some s := by
        rcases ha with ⟨k, occ, rfl, hk, hocc⟩ | ⟨rfl, ha⟩
        · obtain ⟨D', e1, _⟩ := h1 pos occ k hk hocc
          rw [e1] at hs; cases hs
          intro s hs
          rw [Arena.upd_apply] at hs
          by_cases e : s = k
          · exact .inr (by rw [e])
          · rw [if_neg e] at hs; exact .inl hs
        · obtain ⟨D', e1, _⟩ := h2 pos
          rw [e1] at hs; cases hs
          exact fun s hs => .inl hs
      have hfo : ∀ s'', forget slots (insertPatch (q ++ [pos]) nk cs slot) s'' = s'' := by
        intro s''; cases nk <;> rfl
      cases nk with
      | document => exact hc.elim
      | element tag attrs =>
        obtain ⟨hrm, σ', e1, e2⟩ := h.insertable hF he hd hJ hq hpe ha
          (.element tag attrs ((Dialect.library (parsedContent parse)).madeL cs))
        exact ⟨σ', e1, ⟨hrm, hc⟩, fun s hs => (e2 s).2 ((hsl s hs).imp (hd s) id), fun s'' _ s _ => by rw [hfo]⟩
      | text tx =>
        obtain ⟨hrm, σ', e1, e2⟩ := h.insertable hF he hd hJ hq hpe ha (.text tx)
        exact ⟨σ', e1, hrm, fun s hs => (e2 s).2 ((hsl s hs).imp (hd s) id), fun s'' _ s _ => by rw [hfo]⟩
      | comment tx =>
        obtain ⟨hrm, σ', e1, e2⟩ := h.insertable hF he hd hJ hq hpe ha (.comment tx)
        exact ⟨σ', e1, hrm, fun s hs => (e2 s).2 ((hsl s hs).imp (hd s) id), fun s'' _ s _ => by rw [hfo]⟩
    | move q n q' p pos slot hq hn hc hm =>
      rcases hc with ⟨hl, p0, hp0⟩ | ⟨hl, hq0, hp0⟩
      · -- the node is taken from a tree
        obtain ⟨D1, s1, ht, h1, h2⟩ := hL.move _ _ _ _ h0 hA hq hn (.inl ⟨hl, p0, hp0⟩)
        obtain ⟨m1, m2, m3, m4, m5⟩ := hm D1 s1 ht
        rcases ht with ⟨_, rfl, hrp⟩ | ⟨k, rfl, _⟩
        · have hrp := hrp p0 hp0
          have htk := take_long hl (hfind hq)
          have hne : q ≠ [] := by rintro rfl; simp at hl
          have hrep : Rep A0 b F D1 s1 (σ.write q (.text [])) (some (n, A.tree n)) := by
            have eq : q = q.dropLast ++ [q.getLast hne] := (List.dropLast_append_getLast hne).symm
            have hne' : q.dropLast ≠ [] := by
              intro e
              have := congrArg List.length e
              simp at this; omega
            rw [eq]
            exact h.replaced hF hne' (by rw [← eq]; exact hfind hq) (by rw [← eq]; exact hq) hp0 hrp
          obtain ⟨hrm, σ', e1, e2⟩ := hrep.insertable hF (Parted.replaced hA he hp0 hrp)
            (fun s hs => (write_some _ _ _ _).2 (hd s hs)) hJ m1 m2 m5 (A.tree n)
          refine ⟨σ', by simp only [Dialect.apply, htk]; exact e1, ?_, ?_, ?_⟩
          · intro t τ e
            rw [htk] at e; cases e; exact hrm
          · have hsl : ∀ s, slots' s ≠ none → s1 s ≠ none ∨ slot = some s := by
              rcases m5 with ⟨k, occ, rfl, hk, hocc⟩ | ⟨rfl, ha⟩
              · obtain ⟨D', e1, _⟩ := h1 q' p pos occ k hk m1 m2 m3 m4 hocc
                rw [e1] at hs; cases hs
                intro s hs
                rw [Arena.upd_apply] at hs
                by_cases e : s = k
                · exact .inr (by rw [e])
                · rw [if_neg e] at hs; exact .inl hs
              · obtain ⟨D', e1, _⟩ := h2 q' p pos m1 m2 m3 m4
                rw [e1] at hs; cases hs
                exact fun s hs => .inl hs
            exact fun s hs => (e2 s).2 ((hsl s hs).imp (fun h => (write_some _ _ _ _).2 (hd s h)) id)
          · intro s'' _ s _
            rw [(forget_long hl).2]
        · simp at hl
      · -- the node is the tree of a slot
        obtain ⟨k0, rfl⟩ : ∃ k, q = [k] := by
          match q, hl with
          | [k], _ => exact ⟨k, rfl⟩
        have hk0 : k0 ≠ 0 := by rintro rfl; exact hq0 rfl
        have hs0 : slots k0 = some n := by
          simp only [navigate] at hq
          cases e : slots k0 with
          | none => rw [e] at hq; cases hq
          | some m => rw [e] at hq; cases hq; rfl
        have hf := hfind hq
        have htk : σ.take [k0] = some (A.tree n, σ.slot k0 none) := by
          simp only [Store.take, hf, if_neg hk0]
        obtain ⟨m1, m2, m3, m4, m5⟩ := hm A (Arena.upd slots k0 none) (.inr ⟨k0, rfl, rfl, .inr rfl⟩)
        have hrep : Rep A0 b F A (Arena.upd slots k0 none) (σ.slot k0 none) (some (n, A.tree n)) := by
          rcases h.native_take hF htk with ⟨hl', _⟩ | ⟨s, x, es, _, _, hsx, _, _, hr⟩
          · simp at hl'
          · cases es
            rw [hs0] at hsx; cases hsx
            refine hr.congr ?_ ?_
            · rw [Arena.upd_apply, if_neg (fun e => hk0 e.symm)]; exact h0
            · intro s hs
              simp only [Store.slot] at hs
              rw [Arena.upd_apply]
              split
              · next e => rw [if_pos e] at hs; exact absurd rfl hs
              · rfl
        have hd1 : ∀ s, Arena.upd slots k0 none s ≠ none → (σ.slot k0 none) s ≠ none := by
          intro s hs
          rw [Arena.upd_apply] at hs
          simp only [Store.slot]
          split
          · next e => rw [if_pos e] at hs; exact absurd rfl hs
          · next e => rw [if_neg e] at hs; exact hd s hs
        obtain ⟨hrm, σ', e1, e2⟩ := hrep.insertable hF he hd1 hJ m1 m2 m5 (A.tree n)
        refine ⟨σ', by simp only [Dialect.apply, htk]; exact e1, ?_, ?_, ?_⟩
        · intro t τ e
          rw [htk] at e; cases e; exact hrm
        all_goals
          have hle : SlotsLe (Arena.upd slots k0 none) slots := by
            intro i m hi
            rw [Arena.upd_apply] at hi
            split at hi
            · cases hi
            · exact hi
          have hnat : ∃ A2 s2, applyPatch parse A slots (.move [k0] (q' ++ [pos]) slot) = .ok (A2, s2) ∧
              ((slot = none ∧ s2 = slots) ∨ ∃ k occ, slot = some k ∧ occ ≠ n ∧ s2 = Arena.upd slots k (some occ)) := by
            rcases m5 with ⟨k, occ, rfl, hk, hocc⟩ | ⟨rfl, ha⟩
            · obtain ⟨D', e, _⟩ := insertAt_put (k := k) hA (navigate_mono hle m1) hocc hn hp0 m4
              refine ⟨D', _, by simp only [applyPatch, hq, bind, Except.bind, List.length_singleton,
                Nat.lt_irrefl, if_false, Arena.detach_of_parent_none hp0, e], .inr ⟨k, occ, rfl, ?_, rfl⟩⟩
              rintro rfl
              rw [(hA.mem_iff _ _).1 (List.mem_of_getElem? hocc)] at hp0; cases hp0
            · obtain ⟨D', e, _⟩ := insertAt_app (pos := pos) hA (navigate_mono hle m1) m3 hn hp0 m4
              exact ⟨D', _, by simp only [applyPatch, hq, bind, Except.bind, List.length_singleton,
                Nat.lt_irrefl, if_false, Arena.detach_of_parent_none hp0, e], .inl ⟨rfl, rfl⟩⟩
          obtain ⟨A2, s2, en, hcase⟩ := hnat
        · intro s hs1
          simp only [forgetStep, en, forget, if_neg hk0, Except.ok.injEq, Prod.mk.injEq] at hs
          rw [← hs.2] at hs1
          rw [e2]
          rcases hcase with ⟨rfl, rfl⟩ | ⟨k, occ, rfl, hne, rfl⟩
          · refine .inl (hd1 s fun e => hs1 ?_)
            rw [Arena.upd_apply] at e
            by_cases es : s = k0
            · simp [es]
            · rw [if_neg es] at e; simp [es, e]
          · by_cases ek : s = k
            · exact .inr (by rw [ek])
            · refine .inl (hd1 s fun e => hs1 ?_)
              rw [Arena.upd_apply] at e
              by_cases es : s = k0
              · subst es; simp [ek, Arena.upd_apply]
              · rw [if_neg es] at e; simp [es, ek, Arena.upd_apply, e]
        · intro s'' e s hs1
          rw [en] at e
          simp only [Except.ok.injEq, Prod.mk.injEq] at e
          rw [← e.2]
          simp only [forget, if_neg hk0]
          rw [e2] at hs1
          rw [if_neg]
          rintro ⟨rfl, h2⟩
          rcases hs1 with h1 | rfl
          · simp [Store.slot] at h1
          · rcases hcase with ⟨h3, _⟩ | ⟨k, occ, h3, hne, rfl⟩
            · cases h3
            · cases h3
              rw [Arena.upd_apply, if_pos rfl, hs0] at h2
              exact hne (Option.some.inj h2)
  obtain ⟨σ', e1, e2, e3, e4⟩ := key
  have hs' := hs
  unfold forgetStep at hs
  split at hs
  · next D'' s'' e =>
    cases hs
    obtain ⟨A2, s2, e5, hrep⟩ := h.native_step hF hp e1
    rw [e] at e5; cases e5
    refine ⟨σ', e1, hrep.congr ?_ (e4 s'' e), Parted.regular hr hA h0 he e, e3, e2⟩
    rw [forget_zero]; exact hrep.zero
  · cases hs

/-- The patches of a run can be carried out as rewriting of trees. -/
theorem regular_run (hF : Fence A0 b F) {parse : Str → Document} (hp : ∀ s, (parse s).arena.Sound)
    {J : Nat → Prop} (hJ : ∀ n, ¬ J n) {B : Arena TData} {ins : List Nat} {g : Nat → Nat} {w w2 : World}
    {ops : List EditOp} {ps : List Patch} (ht : Trace B ins (forgetStep parse) g J w ops ps w2)
    (h : Rep A0 b F w.D w.slots σ none) (he : w.D.Parted F) (hd : ∀ s, w.slots s ≠ none → σ s ≠ none) :
    ∃ σ', (Dialect.library (parsedContent parse)).run σ ps = some σ' ∧ Rep A0 b F w2.D w2.slots σ' none ∧
      (Dialect.library (parsedContent parse)).Roomy σ ps ∧ ∀ P ∈ ps, P.isReport = false := by
  induction ht generalizing σ with
  | nil => exact ⟨σ, rfl, h, trivial, fun _ h => by cases h⟩
  | cons _ hs _ hr _ ih =>
    obtain ⟨σ1, e1, h1, he1, hd1, hrm⟩ := h.regular_step hF hp hJ he hd hr hs
    obtain ⟨σ2, e2, h2, hrm2, hnr⟩ := ih h1 he1 hd1
    refine ⟨σ2, by simp only [Dialect.run, e1]; exact e2, h2, ⟨hrm, fun σ' e => ?_⟩, ?_⟩
    · rw [e1] at e; cases e; exact hrm2
    · intro Q hQ
      rcases List.mem_cons.1 hQ with rfl | hQ
      · exact hrm.not_report
      · exact hnr Q hQ

end Rep
end Hotmeal
