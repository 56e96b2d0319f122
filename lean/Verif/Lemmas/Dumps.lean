import Verif.Model.Dumps
import Verif.Lemmas.Html

set_option autoImplicit false
set_option linter.unusedSectionVars false

/-!
# Indented text can be read back
-/

namespace Hotmeal
namespace Dump

/-- What is assumed of `{:?}` of the standard library: there is no line feed in what it writes, and one can tell from
what it wrote what the string was and where what it wrote ends. -/
structure DebugStr (dbg : Str → Str) : Prop where
  line : ∀ s, '\n' ∉ dbg s
  back : ∀ s t r r', dbg s ++ r = dbg t ++ r' → s = t ∧ r = r'

theorem toLowerAscii_toLower (c : Char) : toLowerAscii c = c.toLower := by
  unfold toLowerAscii Char.toLower
  by_cases h : 65 ≤ c.toNat ∧ c.toNat ≤ 90
  · have key : ∀ n, n < 91 → 65 ≤ n → Char.ofNat (n + 32) = (Char.ofNat n).toLower := by decide
    rw [if_pos h, key _ (by omega) h.1, Char.ofNat_toNat]
    rfl
  · rw [if_neg h, dif_neg]
    simp only [Char.toNat, UInt32.le_iff_toNat_le] at h ⊢
    exact h

theorem map_lower (s : Str) : s.map toLowerAscii = s.map Char.toLower :=
  List.map_congr_left fun c _ => toLowerAscii_toLower c

/-- Lines with labels, and what is indented below them. -/
inductive Outline
  | node (label : Str) (kids : List Outline)

mutual
/-- The lines of an outline, with their indentation. -/
def Outline.rows (k : Nat) : Outline → List (Nat × Str)
  | .node l cs => (k, l) :: rowsL (k + 1) cs
/-- `rows` of a list. -/
def rowsL (k : Nat) : List Outline → List (Nat × Str)
  | [] => []
  | o :: os => o.rows k ++ rowsL k os
end

/-- One line. -/
def row (x : Nat × Str) : Str := pad x.1 ++ x.2 ++ ['\n']

/-- A label that can be read back. -/
def GoodLabel (l : Str) : Prop := '\n' ∉ l ∧ ∃ c l', l = c :: l' ∧ c ≠ ' '

theorem split_at_char {c : Char} : ∀ {a b r r' : Str}, c ∉ a → c ∉ b → a ++ c :: r = b ++ c :: r' → a = b ∧ r = r'
  | [], [], _, _, _, _, h => by simpa using h
  | [], y :: b, _, _, _, hb, h => by
    simp only [List.nil_append, List.cons_append, List.cons.injEq] at h
    exact absurd h.1 fun e => hb (e ▸ List.mem_cons_self)
  | x :: a, [], _, _, ha, _, h => by
    simp only [List.nil_append, List.cons_append, List.cons.injEq] at h
    exact absurd h.1 fun e => ha (e ▸ List.mem_cons_self)
  | x :: a, y :: b, _, _, ha, hb, h => by
    simp only [List.cons_append, List.cons.injEq] at h
    obtain ⟨h1, h2⟩ := split_at_char (List.not_mem_of_not_mem_cons ha) (List.not_mem_of_not_mem_cons hb) h.2
    exact ⟨by rw [h.1, h1], h2⟩

theorem spaces_inj : ∀ {m n : Nat} {a b : Char} {r r' : Str}, a ≠ ' ' → b ≠ ' ' →
    List.replicate m ' ' ++ a :: r = List.replicate n ' ' ++ b :: r' → m = n ∧ a :: r = b :: r'
  | 0, 0, _, _, _, _, _, _, h => ⟨rfl, h⟩
  | 0, n + 1, _, _, _, _, ha, _, h => by
    simp only [List.replicate_zero, List.nil_append, List.replicate_succ, List.cons_append, List.cons.injEq] at h
    exact absurd h.1 ha
  | m + 1, 0, _, _, _, _, _, hb, h => by
    simp only [List.replicate_zero, List.nil_append, List.replicate_succ, List.cons_append, List.cons.injEq] at h
    exact absurd h.1.symm hb
  | m + 1, n + 1, _, _, _, _, ha, hb, h => by
    simp only [List.replicate_succ, List.cons_append, List.cons.injEq, true_and] at h
    obtain ⟨h1, h2⟩ := spaces_inj ha hb h
    exact ⟨by omega, h2⟩

theorem row_inj {d d' : Nat} {l l' r r' : Str} (hl : GoodLabel l) (hl' : GoodLabel l')
    (h : row (d, l) ++ r = row (d', l') ++ r') : d = d' ∧ l = l' ∧ r = r' := by
  obtain ⟨h1, c, t, rfl, hc⟩ := hl
  obtain ⟨h1', c', t', rfl, hc'⟩ := hl'
  simp only [row, pad, List.append_assoc, List.cons_append, List.nil_append] at h
  obtain ⟨e1, e2⟩ := spaces_inj hc hc' h
  obtain ⟨e3, e4⟩ := split_at_char (a := c :: t) (b := c' :: t') h1 h1' e2
  exact ⟨by omega, e3, e4⟩

theorem rows_text_inj : ∀ {xs ys : List (Nat × Str)}, (∀ x ∈ xs, GoodLabel x.2) → (∀ y ∈ ys, GoodLabel y.2) →
    xs.flatMap row = ys.flatMap row → xs = ys
  | [], [], _, _, _ => rfl
  | [], y :: ys, _, _, h => by
    have := congrArg List.length h
    simp [row] at this
  | x :: xs, [], _, _, h => by
    have := congrArg List.length h
    simp [row] at this
  | (d, l) :: xs, (d', l') :: ys, hx, hy, h => by
    simp only [List.flatMap_cons] at h
    obtain ⟨e1, e2, e3⟩ := row_inj (hx _ List.mem_cons_self) (hy _ List.mem_cons_self) h
    simp only at e1 e2
    rw [e1, e2, rows_text_inj (fun x m => hx x (List.mem_cons_of_mem _ m)) (fun y m => hy y (List.mem_cons_of_mem _ m)) e3]

/-- What follows does not belong to a list at indentation `k`. -/
def Shallow (k : Nat) (r : List (Nat × Str)) : Prop := ∀ x ∈ r.head?, x.1 < k

theorem shallow_rowsL {k : Nat} {r : List (Nat × Str)} (h : Shallow k r) (os : List Outline) :
    Shallow (k + 1) (rowsL k os ++ r) := by
  cases os with
  | nil =>
    intro x hx
    simp only [rowsL, List.nil_append] at hx
    have := h x hx
    omega
  | cons o os =>
    cases o with
    | node l cs =>
      intro x hx
      simp only [rowsL, Outline.rows, List.cons_append, List.head?_cons, Option.mem_def, Option.some.injEq] at hx
      subst hx
      exact Nat.lt_succ_self k

theorem rowsL_inj (os : List Outline) : ∀ (k : Nat) (os' : List Outline) (r r' : List (Nat × Str)), Shallow k r →
    Shallow k r' → rowsL k os ++ r = rowsL k os' ++ r' → os = os' ∧ r = r' := by
  intro k os' r r' hr hr' h
  match os, os' with
  | [], [] => exact ⟨rfl, by simpa [rowsL] using h⟩
  | [], .node l cs :: t =>
    simp only [rowsL, Outline.rows, List.nil_append, List.cons_append] at h
    have := hr (k, l) (by rw [h]; rfl)
    exact absurd this (Nat.lt_irrefl k)
  | .node l cs :: t, [] =>
    simp only [rowsL, Outline.rows, List.nil_append, List.cons_append] at h
    have := hr' (k, l) (by rw [← h]; rfl)
    exact absurd this (Nat.lt_irrefl k)
  | .node l cs :: t, .node l' cs' :: t' =>
    simp only [rowsL, Outline.rows, List.cons_append, List.append_assoc, List.cons.injEq, Prod.mk.injEq, true_and] at h
    obtain ⟨e1, e2⟩ := rowsL_inj cs (k + 1) cs' _ _ (shallow_rowsL hr t) (shallow_rowsL hr' t') h.2
    obtain ⟨e3, e4⟩ := rowsL_inj t k t' r r' hr hr' e2
    exact ⟨by rw [h.1, e1, e3], e4⟩
termination_by sizeOf os

/-! ### The lines of a tree -/

/-- The first line of an element without its indentation. -/
def openLabel (dbg : Str → Str) (tag : Str) (attrs : Attrs) : Str :=
  '<' :: tag.map toLowerAscii ++ (attrsOf attrs).flatMap (fun kv => ' ' :: kv.1 ++ '=' :: dbg kv.2) ++ ['>']

/-- The last line of an element. -/
def closeLabel (tag : Str) : Str := '<' :: '/' :: tag.map toLowerAscii ++ ['>']

mutual
/-- The lines of a tree. -/
def outline (dbg : Str → Str) : Html → List Outline
  | .element tag attrs cs => [.node (openLabel dbg tag attrs) (outlineL dbg cs), .node (closeLabel tag) []]
  | .text s => [.node ("TEXT: ".toList ++ dbg s) []]
  | .comment s => [.node ("COMMENT: ".toList ++ dbg s) []]
  | .document => [.node "#document".toList []]
/-- `outline` of a list. -/
def outlineL (dbg : Str → Str) : List Html → List Outline
  | [] => []
  | c :: cs => outline dbg c ++ outlineL dbg cs
end

theorem rowsL_append (k : Nat) : ∀ os os' : List Outline, rowsL k (os ++ os') = rowsL k os ++ rowsL k os'
  | [], _ => rfl
  | o :: os, os' => by simp only [List.cons_append, rowsL, rowsL_append k os, List.append_assoc]

theorem outlineL_eq (dbg : Str → Str) : ∀ cs, outlineL dbg cs = cs.flatMap (outline dbg)
  | [] => rfl
  | c :: cs => by simp only [outlineL, outlineL_eq dbg cs, List.flatMap_cons]

theorem rowsL_flatMap (k : Nat) (f : Html → List Outline) : ∀ cs : List Html,
    rowsL k (cs.flatMap f) = cs.flatMap fun c => rowsL k (f c)
  | [] => rfl
  | c :: cs => by simp only [List.flatMap_cons, rowsL_append, rowsL_flatMap k f cs]

/-- `dump_node` writes the lines of the tree. -/
theorem dumpNode_eq (dbg : Str → Str) {A : Arena NodeData} (hA : A.WF) (n : Nat)
    (hd : ∀ m, A.Anc n m → (A.data m).kind ≠ .document) (k : Nat) :
    dumpNode dbg A n k = (rowsL k (outline dbg (A.tree n))).flatMap row := by
  revert k
  refine hA.induct_down (P := fun n => (∀ m, A.Anc n m → (A.data m).kind ≠ .document) → ∀ k,
    dumpNode dbg A n k = (rowsL k (outline dbg (A.tree n))).flatMap row) ?_ n hd
  intro n ih hd k
  have hc : ∀ c ∈ A.children n, ∀ m, A.Anc c m → (A.data m).kind ≠ .document := by
    intro c hc m hm
    exact hd m (Arena.Anc.trans (.step ((hA.mem_iff c n).1 hc) .refl) hm)
  unfold dumpNode
  rw [hA.fold_eq, hA.tree_eq]
  have key : ((A.children n).map (fun c => dumpNode dbg A c)).flatMap (fun c => c (k + 1)) =
      (rowsL (k + 1) (outlineL dbg (A.forest n))).flatMap row := by
    rw [outlineL_eq, rowsL_flatMap, Arena.forest, List.flatMap_map, List.flatMap_map, List.flatMap_assoc]
    unfold List.flatMap
    exact congrArg List.flatten (List.map_congr_left fun c hcm => ih c hcm (hc c hcm) (k + 1))
  unfold dumpNode at key
  cases hk : (A.data n).kind with
  | document => exact absurd hk (hd n .refl)
  | element tag attrs =>
    rw [outlineL_eq] at key
    simp [dumpKind, key, Html.ofKind, outline, outlineL_eq, rowsL, Outline.rows, row, openLabel, closeLabel]
  | text s => simp [dumpKind, Html.ofKind, outline, rowsL, Outline.rows, row]
  | comment s => simp [dumpKind, Html.ofKind, outline, rowsL, Outline.rows, row]

/-! ### Which tree the lines come from -/

/-- A name of an element that can be read back. -/
def PlainTag (tag : Str) : Prop := (∃ c t, tag = c :: t ∧ c ≠ '/') ∧ ∀ c ∈ tag, c ≠ '\n' ∧ c ≠ ' ' ∧ c ≠ '>'

/-- A name of an attribute that can be read back. -/
def PlainAttr (q : QualName) : Prop := ∀ c ∈ q.loc, c ≠ '\n' ∧ c ≠ '='

mutual
/-- All names in a tree can be read back. -/
def Plain : Html → Prop
  | .element tag attrs cs => PlainTag tag ∧ (∀ kv ∈ attrs, PlainAttr kv.1) ∧ PlainL cs
  | _ => True
/-- `Plain` for a list. -/
def PlainL : List Html → Prop
  | [] => True
  | c :: cs => Plain c ∧ PlainL cs
end

mutual
/-- Two trees have the same elements, up to the case of their names and up to the order and the prefixes of their
attributes, and the same texts and comments. -/
def LooksLike : Html → Html → Prop
  | .element tag attrs cs, .element tag' attrs' cs' =>
    tag.map Char.toLower = tag'.map Char.toLower ∧
      List.Perm (attrs.map fun kv => (kv.1.loc, kv.2)) (attrs'.map fun kv => (kv.1.loc, kv.2)) ∧ LooksLikeL cs cs'
  | .text s, .text s' => s = s'
  | .comment s, .comment s' => s = s'
  | .document, .document => True
  | _, _ => False
/-- `LooksLike` for lists. -/
def LooksLikeL : List Html → List Html → Prop
  | [], [] => True
  | c :: cs, c' :: cs' => LooksLike c c' ∧ LooksLikeL cs cs'
  | _, _ => False
end

theorem insertAttr_perm (x : Str × Str) : ∀ l, List.Perm (insertAttr x l) (x :: l)
  | [] => .refl _
  | y :: l => by
    unfold insertAttr
    split
    · exact .refl _
    · exact (List.Perm.cons y (insertAttr_perm x l)).trans (.swap x y l)

theorem sortAttrs_perm : ∀ l, List.Perm (sortAttrs l) l
  | [] => .refl _
  | x :: l => (insertAttr_perm x _).trans (.cons x (sortAttrs_perm l))

theorem toLowerAscii_eq (c d : Char) (hd : ¬ (97 ≤ d.toNat ∧ d.toNat ≤ 122)) (h : toLowerAscii c = d) : c = d := by
  unfold toLowerAscii at h
  split at h
  · next hc =>
    exfalso
    apply hd
    have key : ∀ n, n < 91 → 65 ≤ n → (Char.ofNat (n + 32)).toNat = n + 32 := by decide
    have := key c.toNat (by omega) hc.1
    rw [h] at this
    omega
  · exact h

theorem lower_not_mem {d : Char} (hd : ¬ (97 ≤ d.toNat ∧ d.toNat ≤ 122)) {tag : Str} (h : d ∉ tag) :
    d ∉ tag.map toLowerAscii := by
  intro hm
  obtain ⟨c, hc, e⟩ := List.mem_map.1 hm
  exact h (toLowerAscii_eq c d hd e ▸ hc)

theorem PlainTag.not_mem {tag : Str} (h : PlainTag tag) :
    '\n' ∉ tag.map toLowerAscii ∧ ' ' ∉ tag.map toLowerAscii ∧ '>' ∉ tag.map toLowerAscii :=
  ⟨lower_not_mem (by decide) fun m => (h.2 _ m).1 rfl, lower_not_mem (by decide) fun m => (h.2 _ m).2.1 rfl,
    lower_not_mem (by decide) fun m => (h.2 _ m).2.2 rfl⟩

/-- The attributes as they are written. -/
def attrText (dbg : Str → Str) (l : List (Str × Str)) : Str := l.flatMap fun kv => ' ' :: kv.1 ++ '=' :: dbg kv.2

theorem attrText_inj {dbg : Str → Str} (hd : DebugStr dbg) : ∀ {l l' : List (Str × Str)} {r r' : Str},
    (∀ kv ∈ l, '=' ∉ kv.1) → (∀ kv ∈ l', '=' ∉ kv.1) →
    attrText dbg l ++ '>' :: r = attrText dbg l' ++ '>' :: r' → l = l' ∧ r = r'
  | [], [], _, _, _, _, h => by simpa [attrText] using h
  | [], _ :: _, _, _, _, _, h => by simp [attrText] at h
  | _ :: _, [], _, _, _, _, h => by simp [attrText] at h
  | (a, v) :: l, (a', v') :: l', r, r', h1, h2, h => by
    have e : ∀ (a v : Str) (l : List (Str × Str)) (r : Str), attrText dbg ((a, v) :: l) ++ '>' :: r =
        ' ' :: (a ++ '=' :: (dbg v ++ (attrText dbg l ++ '>' :: r))) := by
      intro a v l r
      simp [attrText]
    rw [e, e] at h
    obtain ⟨e1, e2⟩ := split_at_char (h1 _ List.mem_cons_self) (h2 _ List.mem_cons_self) (List.cons.inj h).2
    obtain ⟨e3, e4⟩ := hd.back _ _ _ _ e2
    obtain ⟨e5, e6⟩ := attrText_inj hd (fun kv m => h1 kv (List.mem_cons_of_mem _ m))
      (fun kv m => h2 kv (List.mem_cons_of_mem _ m)) e4
    simp only at e1
    exact ⟨by rw [e1, e3, e5], e6⟩

theorem attrsOf_mem {attrs : Attrs} {x : Str × Str} (h : x ∈ attrsOf attrs) : ∃ kv ∈ attrs, kv.1.loc = x.1 := by
  have := (sortAttrs_perm _).mem_iff.1 h
  obtain ⟨kv, hkv, e⟩ := List.mem_map.1 this
  exact ⟨kv, hkv, by rw [← e]⟩

theorem tag_split {a b r r' : Str} (ha : ' ' ∉ a ∧ '>' ∉ a) (hb : ' ' ∉ b ∧ '>' ∉ b)
    (hr : ∃ c t, r = c :: t ∧ (c = ' ' ∨ c = '>')) (hr' : ∃ c t, r' = c :: t ∧ (c = ' ' ∨ c = '>')) (h : a ++ r = b ++ r') :
    a = b ∧ r = r' := by
  induction a generalizing b with
  | nil =>
    cases b with
    | nil => exact ⟨rfl, h⟩
    | cons y b =>
      obtain ⟨c, t, rfl, hc⟩ := hr
      simp only [List.nil_append, List.cons_append, List.cons.injEq] at h
      rw [h.1] at hc
      rcases hc with rfl | rfl
      · exact absurd List.mem_cons_self hb.1
      · exact absurd List.mem_cons_self hb.2
  | cons x a ih =>
    cases b with
    | nil =>
      obtain ⟨c, t, rfl, hc⟩ := hr'
      simp only [List.nil_append, List.cons_append, List.cons.injEq] at h
      rw [← h.1] at hc
      rcases hc with rfl | rfl
      · exact absurd List.mem_cons_self ha.1
      · exact absurd List.mem_cons_self ha.2
    | cons y b =>
      simp only [List.cons_append, List.cons.injEq] at h
      obtain ⟨e1, e2⟩ := ih ⟨List.not_mem_of_not_mem_cons ha.1, List.not_mem_of_not_mem_cons ha.2⟩
        ⟨List.not_mem_of_not_mem_cons hb.1, List.not_mem_of_not_mem_cons hb.2⟩ h.2
      exact ⟨by rw [h.1, e1], e2⟩

theorem attrText_start (dbg : Str → Str) (l : List (Str × Str)) :
    ∃ c t, attrText dbg l ++ ['>'] = c :: t ∧ (c = ' ' ∨ c = '>') := by
  cases l with
  | nil => exact ⟨'>', [], rfl, .inr rfl⟩
  | cons x l => exact ⟨' ', _, by simp only [attrText, List.flatMap_cons, List.cons_append]; rfl, .inl rfl⟩

theorem openLabel_inj {dbg : Str → Str} (hd : DebugStr dbg) {tag tag' : Str} {attrs attrs' : Attrs}
    (ht : PlainTag tag) (ht' : PlainTag tag') (ha : ∀ kv ∈ attrs, PlainAttr kv.1) (ha' : ∀ kv ∈ attrs', PlainAttr kv.1)
    (h : openLabel dbg tag attrs = openLabel dbg tag' attrs') :
    tag.map toLowerAscii = tag'.map toLowerAscii ∧
      List.Perm (attrs.map fun kv => (kv.1.loc, kv.2)) (attrs'.map fun kv => (kv.1.loc, kv.2)) := by
  have h2 : tag.map toLowerAscii ++ (attrText dbg (attrsOf attrs) ++ ['>']) =
      tag'.map toLowerAscii ++ (attrText dbg (attrsOf attrs') ++ ['>']) := by
    simpa [openLabel, attrText] using h
  obtain ⟨e1, e2⟩ := tag_split ht.not_mem.2 ht'.not_mem.2 (attrText_start _ _) (attrText_start _ _) h2
  have hq : ∀ {attrs : Attrs}, (∀ kv ∈ attrs, PlainAttr kv.1) → ∀ x ∈ attrsOf attrs, '=' ∉ x.1 := by
    intro attrs ha x hx hm
    obtain ⟨kv, hkv, e⟩ := attrsOf_mem hx
    exact (ha kv hkv '=' (e ▸ hm)).2 rfl
  obtain ⟨e3, _⟩ := attrText_inj hd (hq ha) (hq ha') e2
  refine ⟨e1, ?_⟩
  have p1 := sortAttrs_perm (attrs.map fun kv => (kv.1.loc, kv.2))
  have p2 := sortAttrs_perm (attrs'.map fun kv => (kv.1.loc, kv.2))
  unfold attrsOf at e3
  rw [e3] at p1
  exact p1.symm.trans p2

mutual
theorem outline_inj {dbg : Str → Str} (hd : DebugStr dbg) : ∀ (t t' : Html), Plain t → Plain t' →
    ∀ r r', outline dbg t ++ r = outline dbg t' ++ r' → LooksLike t t' ∧ r = r'
  | .element tag attrs cs, t', hp, hp', r, r', h => by
    cases t' with
    | element tag' attrs' cs' =>
      simp only [outline, List.cons_append, List.nil_append, List.cons.injEq, Outline.node.injEq] at h
      obtain ⟨⟨h1, h2⟩, _, h3⟩ := h
      obtain ⟨e1, e2⟩ := openLabel_inj hd hp.1 hp'.1 hp.2.1 hp'.2.1 h1
      exact ⟨⟨by rw [← map_lower, e1, map_lower], e2, outlineL_inj hd cs cs' hp.2.2 hp'.2.2 h2⟩, h3⟩
    | _ => simp [outline, openLabel] at h
  | .text s, t', hp, hp', r, r', h => by
    cases t' with
    | text s' =>
      simp only [outline, List.cons_append, List.nil_append, List.cons.injEq, Outline.node.injEq,
        List.append_cancel_left_eq, and_true] at h
      obtain ⟨e, _⟩ := hd.back s s' [] [] (by simpa using h.1)
      exact ⟨e, h.2⟩
    | _ => simp [outline, openLabel] at h
  | .comment s, t', hp, hp', r, r', h => by
    cases t' with
    | comment s' =>
      simp only [outline, List.cons_append, List.nil_append, List.cons.injEq, Outline.node.injEq,
        List.append_cancel_left_eq, and_true] at h
      obtain ⟨e, _⟩ := hd.back s s' [] [] (by simpa using h.1)
      exact ⟨e, h.2⟩
    | _ => simp [outline, openLabel] at h
  | .document, t', hp, hp', r, r', h => by
    cases t' with
    | document => exact ⟨trivial, by simpa [outline] using h⟩
    | _ => simp [outline, openLabel] at h
theorem outlineL_inj {dbg : Str → Str} (hd : DebugStr dbg) : ∀ (cs cs' : List Html), PlainL cs → PlainL cs' →
    outlineL dbg cs = outlineL dbg cs' → LooksLikeL cs cs'
  | [], [], _, _, _ => trivial
  | [], c :: cs, _, _, h => by cases c <;> simp [outlineL, outline] at h
  | c :: cs, [], _, _, h => by cases c <;> simp [outlineL, outline] at h
  | c :: cs, c' :: cs', hp, hp', h => by
    simp only [outlineL] at h
    obtain ⟨e1, e2⟩ := outline_inj hd c c' hp.1 hp'.1 _ _ h
    exact ⟨e1, outlineL_inj hd cs cs' hp.2 hp'.2 e2⟩
end

theorem openLabel_good {dbg : Str → Str} (hd : DebugStr dbg) {tag : Str} {attrs : Attrs} (ht : PlainTag tag)
    (ha : ∀ kv ∈ attrs, PlainAttr kv.1) : GoodLabel (openLabel dbg tag attrs) := by
  refine ⟨?_, '<', _, rfl, by decide⟩
  intro hm
  simp only [openLabel, List.cons_append, List.mem_cons, List.mem_append, List.mem_flatMap, List.not_mem_nil,
    or_false] at hm
  rcases hm with h | (h | ⟨x, hx, h | h | h | h⟩) | h
  · cases h
  · exact ht.not_mem.1 h
  · cases h
  · obtain ⟨kv, hkv, e⟩ := attrsOf_mem hx
    exact (ha kv hkv '\n' (e ▸ h)).1 rfl
  · cases h
  · exact hd.line _ h
  · cases h

theorem closeLabel_good {tag : Str} (ht : PlainTag tag) : GoodLabel (closeLabel tag) := by
  refine ⟨?_, '<', _, rfl, by decide⟩
  intro hm
  simp only [closeLabel, List.cons_append, List.mem_cons, List.mem_append, List.not_mem_nil, or_false] at hm
  rcases hm with h | h | h | h
  · cases h
  · cases h
  · exact ht.not_mem.1 h
  · cases h

mutual
theorem outline_good {dbg : Str → Str} (hd : DebugStr dbg) : ∀ (t : Html) (k : Nat), Plain t →
    ∀ x ∈ rowsL k (outline dbg t), GoodLabel x.2
  | .element tag attrs cs, k, hp, x, hx => by
    simp only [outline, rowsL, Outline.rows, List.append_nil, List.mem_append, List.mem_cons, List.not_mem_nil,
      or_false] at hx
    rcases hx with (rfl | hx) | rfl
    · exact openLabel_good hd hp.1 hp.2.1
    · exact outlineL_good hd cs (k + 1) hp.2.2 x hx
    · exact closeLabel_good hp.1
  | .text s, k, hp, x, hx => by
    simp only [outline, rowsL, Outline.rows, List.append_nil, List.mem_cons, List.not_mem_nil, or_false] at hx
    subst hx
    refine ⟨?_, 'T', "EXT: ".toList ++ dbg s, rfl, by decide⟩
    intro hm
    rcases List.mem_append.1 hm with h | h
    · exact absurd h (by decide)
    · exact hd.line _ h
  | .comment s, k, hp, x, hx => by
    simp only [outline, rowsL, Outline.rows, List.append_nil, List.mem_cons, List.not_mem_nil, or_false] at hx
    subst hx
    refine ⟨?_, 'C', "OMMENT: ".toList ++ dbg s, rfl, by decide⟩
    intro hm
    rcases List.mem_append.1 hm with h | h
    · exact absurd h (by decide)
    · exact hd.line _ h
  | .document, k, hp, x, hx => by
    simp only [outline, rowsL, Outline.rows, List.append_nil, List.mem_cons, List.not_mem_nil, or_false] at hx
    subst hx
    have h : '\n' ∉ "#document".toList := by decide
    exact ⟨h, '#', "document".toList, rfl, by decide⟩
theorem outlineL_good {dbg : Str → Str} (hd : DebugStr dbg) : ∀ (cs : List Html) (k : Nat), PlainL cs →
    ∀ x ∈ rowsL k (outlineL dbg cs), GoodLabel x.2
  | [], _, _, x, hx => by simp [outlineL, rowsL] at hx
  | c :: cs, k, hp, x, hx => by
    simp only [outlineL, rowsL_append, List.mem_append] at hx
    rcases hx with h | h
    · exact outline_good hd c k hp.1 x h
    · exact outlineL_good hd cs k hp.2 x h
end

/-- Trees whose lines are written alike look alike. -/
theorem looksLike_of_text {dbg : Str → Str} (hd : DebugStr dbg) {t t' : Html} {k : Nat} (hp : Plain t) (hp' : Plain t')
    (h : (rowsL k (outline dbg t)).flatMap row = (rowsL k (outline dbg t')).flatMap row) : LooksLike t t' := by
  have e := rows_text_inj (outline_good hd t k hp) (outline_good hd t' k hp') h
  obtain ⟨e2, _⟩ := rowsL_inj (outline dbg t) k (outline dbg t') [] [] (by simp [Shallow]) (by simp [Shallow])
    (by rw [e])
  exact (outline_inj hd t t' hp hp' [] [] (by rw [e2])).1

/-! ### Trees that look alike are written alike -/

theorem strLe_refl : ∀ s, strLe s s = true
  | [] => rfl
  | a :: s => by simp [strLe, strLe_refl s]

theorem strLe_total : ∀ s t, strLe s t = true ∨ strLe t s = true
  | [], _ => .inl rfl
  | _ :: _, [] => .inr rfl
  | a :: s, b :: t => by
    simp only [strLe, Bool.or_eq_true, decide_eq_true_eq, Bool.and_eq_true, beq_iff_eq]
    by_cases h : a.val < b.val
    · exact .inl (.inl h)
    by_cases h' : b.val < a.val
    · exact .inr (.inl h')
    have := Char.ext (UInt32.le_antisymm (UInt32.not_lt.1 h') (UInt32.not_lt.1 h))
    subst this
    rcases strLe_total s t with h | h
    · exact .inl (.inr ⟨rfl, h⟩)
    · exact .inr (.inr ⟨rfl, h⟩)

theorem strLe_antisymm : ∀ s t, strLe s t = true → strLe t s = true → s = t
  | [], [], _, _ => rfl
  | [], _ :: _, _, h => by simp [strLe] at h
  | _ :: _, [], h, _ => by simp [strLe] at h
  | a :: s, b :: t, h, h' => by
    simp only [strLe, Bool.or_eq_true, decide_eq_true_eq, Bool.and_eq_true, beq_iff_eq] at h h'
    rcases h with h | ⟨rfl, h⟩
    · rcases h' with h' | ⟨rfl, h'⟩
      · exact absurd h (UInt32.lt_asymm h')
      · exact absurd h (UInt32.lt_irrefl _)
    · rcases h' with h' | ⟨_, h'⟩
      · exact absurd h' (UInt32.lt_irrefl _)
      · rw [strLe_antisymm s t h h']

theorem strLe_trans : ∀ s t u, strLe s t = true → strLe t u = true → strLe s u = true
  | [], _, _, _, _ => rfl
  | _ :: _, [], _, h, _ => by simp [strLe] at h
  | _ :: _, _ :: _, [], _, h => by simp [strLe] at h
  | a :: s, b :: t, c :: u, h, h' => by
    simp only [strLe, Bool.or_eq_true, decide_eq_true_eq, Bool.and_eq_true, beq_iff_eq] at h h' ⊢
    rcases h with h | ⟨rfl, h⟩
    · rcases h' with h' | ⟨rfl, h'⟩
      · exact .inl (UInt32.lt_trans h h')
      · exact .inl h
    · rcases h' with h' | ⟨rfl, h'⟩
      · exact .inl h'
      · exact .inr ⟨rfl, strLe_trans s t u h h'⟩

theorem insertAttr_sorted (x : Str × Str) : ∀ {l : List (Str × Str)}, l.Pairwise (fun x y => strLe x.1 y.1 = true) →
    (insertAttr x l).Pairwise (fun x y => strLe x.1 y.1 = true)
  | [], _ => List.pairwise_singleton _ _
  | y :: l, h => by
    unfold insertAttr
    split
    · next hxy =>
      refine List.pairwise_cons.2 ⟨?_, h⟩
      intro z hz
      rcases List.mem_cons.1 hz with rfl | hz
      · exact hxy
      · exact strLe_trans _ _ _ hxy ((List.pairwise_cons.1 h).1 z hz)
    · next hxy =>
      refine List.pairwise_cons.2 ⟨?_, insertAttr_sorted x (List.pairwise_cons.1 h).2⟩
      intro z hz
      rcases List.mem_cons.1 ((insertAttr_perm x l).mem_iff.1 hz) with rfl | hz
      · exact (strLe_total _ _).resolve_left hxy
      · exact (List.pairwise_cons.1 h).1 z hz

theorem sortAttrs_sorted : ∀ l, (sortAttrs l).Pairwise (fun x y => strLe x.1 y.1 = true)
  | [] => List.Pairwise.nil
  | x :: l => insertAttr_sorted x (sortAttrs_sorted l)

theorem eq_of_key {l : List (Str × Str)} (h : (l.map Prod.fst).Nodup) {x y : Str × Str} (hx : x ∈ l) (hy : y ∈ l)
    (e : x.1 = y.1) : x = y := by
  induction l with
  | nil => cases hx
  | cons z l ih =>
    simp only [List.map_cons, List.nodup_cons] at h
    rcases List.mem_cons.1 hx with hx | hx <;> rcases List.mem_cons.1 hy with hy | hy
    · rw [hx, hy]
    · exact absurd (List.mem_map.2 ⟨y, hy, by rw [← e, hx]⟩) h.1
    · exact absurd (List.mem_map.2 ⟨x, hx, by rw [e, hy]⟩) h.1
    · exact ih h.2 hx hy

theorem sortAttrs_congr {l l' : List (Str × Str)} (hn : (l.map Prod.fst).Nodup) (h : List.Perm l l') :
    sortAttrs l = sortAttrs l' := by
  refine List.Perm.eq_of_pairwise ?_ (sortAttrs_sorted l) (sortAttrs_sorted l')
    ((sortAttrs_perm l).trans (h.trans (sortAttrs_perm l').symm))
  intro x y hx hy h1 h2
  exact eq_of_key hn ((sortAttrs_perm l).mem_iff.1 hx) (h.mem_iff.2 ((sortAttrs_perm l').mem_iff.1 hy))
    (strLe_antisymm _ _ h1 h2)

mutual
/-- No element has two attributes with the same name up to prefixes. -/
def Distinct : Html → Prop
  | .element _ attrs cs => (attrs.map fun kv => kv.1.loc).Nodup ∧ DistinctL cs
  | _ => True
/-- `Distinct` for a list. -/
def DistinctL : List Html → Prop
  | [] => True
  | c :: cs => Distinct c ∧ DistinctL cs
end

mutual
theorem outline_congr (dbg : Str → Str) : ∀ (t t' : Html), Distinct t → LooksLike t t' → outline dbg t = outline dbg t'
  | .element tag attrs cs, t', hn, h => by
    cases t' with
    | element tag' attrs' cs' =>
      obtain ⟨h1, h2, h3⟩ := h
      rw [← map_lower, ← map_lower] at h1
      have : attrsOf attrs = attrsOf attrs' := sortAttrs_congr (by rw [List.map_map]; exact hn.1) h2
      simp only [outline, openLabel, closeLabel, h1, this, outlineL_congr dbg cs cs' hn.2 h3]
    | _ => simp [LooksLike] at h
  | .text s, t', _, h => by
    cases t' with
    | text s' => simp only [LooksLike] at h; rw [h]
    | _ => simp [LooksLike] at h
  | .comment s, t', _, h => by
    cases t' with
    | comment s' => simp only [LooksLike] at h; rw [h]
    | _ => simp [LooksLike] at h
  | .document, t', _, h => by
    cases t' with
    | document => rfl
    | _ => simp [LooksLike] at h
theorem outlineL_congr (dbg : Str → Str) : ∀ (cs cs' : List Html), DistinctL cs → LooksLikeL cs cs' →
    outlineL dbg cs = outlineL dbg cs'
  | [], [], _, _ => rfl
  | [], _ :: _, _, h => by simp [LooksLikeL] at h
  | _ :: _, [], _, h => by simp [LooksLikeL] at h
  | c :: cs, c' :: cs', hn, h => by
    simp only [outlineL, outline_congr dbg c c' hn.1 h.1, outlineL_congr dbg cs cs' hn.2 h.2]
end

/-! ### A way of writing strings that meets the assumptions -/

/-- Quotes around the string, and backslashes before quotes, backslashes and line feeds. -/
def quote (s : Str) : Str :=
  '"' :: s.flatMap (fun c => if c = '"' then ['\\', '"'] else if c = '\\' then ['\\', '\\'] else if c = '\n' then ['\\', 'n']
    else [c]) ++ ['"']

theorem quote_back : ∀ (s t r r' : Str), quote s ++ r = quote t ++ r' → s = t ∧ r = r'
  | [], [], r, r', h => by simpa [quote] using h
  | [], d :: t, r, r', h => by
    exfalso
    simp only [quote, List.flatMap_nil, List.flatMap_cons] at h
    split at h
    · simp at h
    · split at h
      · simp at h
      · split at h
        · simp at h
        · next h1 _ _ =>
          simp only [List.cons_append, List.nil_append, List.cons.injEq, true_and] at h
          exact h1 h.1.symm
  | c :: s, [], r, r', h => by
    exfalso
    simp only [quote, List.flatMap_nil, List.flatMap_cons] at h
    split at h
    · simp at h
    · split at h
      · simp at h
      · split at h
        · simp at h
        · next h1 _ _ =>
          simp only [List.cons_append, List.nil_append, List.cons.injEq, true_and] at h
          exact h1 h.1
  | c :: s, d :: t, r, r', h => by
    have key : c = d ∧ quote s ++ r = quote t ++ r' := by
      simp only [quote, List.flatMap_cons] at h ⊢
      grind
    obtain ⟨e1, e2⟩ := quote_back s t r r' key.2
    exact ⟨by rw [key.1, e1], e2⟩

theorem debugStr_quote : DebugStr quote := by
  refine ⟨?_, quote_back⟩
  intro s hm
  simp only [quote, List.cons_append, List.mem_cons, List.mem_append, List.mem_flatMap, List.not_mem_nil, or_false] at hm
  rcases hm with h | ⟨c, _, h⟩ | h
  · cases h
  · split at h
    · simp at h
    · split at h
      · simp at h
      · split at h
        · simp at h
        · next h3 => exact h3 (List.mem_singleton.1 h).symm
  · cases h

end Dump
end Hotmeal
