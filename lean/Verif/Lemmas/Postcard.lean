import Verif.Model.Postcard
import Verif.Props.Numbers

set_option autoImplicit false
set_option linter.unusedSectionVars false

/-!
# What is read from bytes that were written (for C81)
-/

namespace Hotmeal.Postcard

variable {α β : Type}

/-! ### What a reader gets from what a writer wrote -/

/-- From `b` and whatever follows it, the reader gets `x` and leaves what follows. -/
def Reads (get : Reader α) (b : Bytes) (x : α) : Prop := ∀ rest, get (b ++ rest) = some (x, rest)

theorem Reads.pure (x : α) : Reads (Pure.pure x) [] x := fun _ => rfl

theorem Reads.bind {g : Reader α} {f : α → Reader β} {b c : Bytes} {x : α} {y : β} (h1 : Reads g b x)
    (h2 : Reads (f x) c y) : Reads (g >>= f) (b ++ c) y := by
  intro rest
  show (g (b ++ c ++ rest)).bind (fun p => f p.1 p.2) = _
  rw [List.append_assoc, h1]
  exact h2 rest

/-- A last step that makes the value. -/
theorem Reads.last {g : Reader α} {f : α → β} {b : Bytes} {x : α} (h : Reads g b x) :
    Reads (g >>= fun x => Pure.pure (f x)) b (f x) := by
  have := h.bind (f := fun x => Pure.pure (f x)) (Reads.pure (f x))
  rwa [List.append_nil] at this

theorem reads_byte (b : UInt8) : Reads getByte [b] b := fun _ => rfl

theorem toUInt8_lt {n : Nat} (h : n < 256) : n.toUInt8.toNat = n := Nat.mod_eq_of_lt h

theorem reads_varint : ∀ k j n, n < 128 ^ (k + 1) → n < 128 ^ (j + 1) →
    Reads (getVarint (k + 1)) (putVarint (j + 1) n) n := by
  intro k
  induction k with
  | zero =>
    intro j n h1 _ rest
    have h : n < 128 := h1
    have hb : n.toUInt8 < 128 := by
      rw [UInt8.lt_iff_toNat_lt, toUInt8_lt (by omega)]; exact h
    simp only [putVarint, if_pos h, List.cons_append, List.nil_append]
    show (if n.toUInt8 < 128 then Pure.pure n.toUInt8.toNat else _ : Reader Nat) rest = _
    rw [if_pos hb, toUInt8_lt (by omega)]
    rfl
  | succ k ih =>
    intro j n h1 h2
    by_cases h : n < 128
    · intro rest
      have hb : n.toUInt8 < 128 := by
        rw [UInt8.lt_iff_toNat_lt, toUInt8_lt (by omega)]; exact h
      simp only [putVarint, if_pos h, List.cons_append, List.nil_append]
      show (if n.toUInt8 < 128 then Pure.pure n.toUInt8.toNat else _ : Reader Nat) rest = _
      rw [if_pos hb, toUInt8_lt (by omega)]
      rfl
    · cases j with
      | zero => exact absurd h2 h
      | succ j =>
        have e : putVarint (j + 1 + 1) n = [(n % 128 + 128).toUInt8] ++ putVarint (j + 1) (n / 128) := by
          conv => lhs; unfold putVarint
          rw [if_neg h]; rfl
        rw [e]
        refine (reads_byte _).bind ?_
        have hm := Nat.mod_lt n (show 0 < 128 by omega)
        have hv : (n % 128 + 128).toUInt8.toNat = n % 128 + 128 := toUInt8_lt (by omega)
        rw [if_neg (by rw [UInt8.lt_iff_toNat_lt, hv]; exact fun h => absurd h (by simp))]
        have h1' : n / 128 < 128 ^ (k + 1) := by
          rw [Nat.div_lt_iff_lt_mul (by omega)]; rw [Nat.pow_succ] at h1; exact h1
        have h2' : n / 128 < 128 ^ (j + 1) := by
          rw [Nat.div_lt_iff_lt_mul (by omega)]; rw [Nat.pow_succ] at h2; exact h2
        have := (ih j (n / 128) h1' h2').last (f := fun m => (n % 128 + 128).toUInt8.toNat - 128 + 128 * m)
        simp only [hv] at this ⊢
        have hn : n % 128 + 128 - 128 + 128 * (n / 128) = n := by omega
        rw [hn] at this
        exact this

theorem reads_number {j n : Nat} (hj : 5 ≤ j) (h : n < 2 ^ 32) : Reads getU32 (putVarint j n) n := by
  obtain ⟨j, rfl⟩ : ∃ i, j = i + 1 := ⟨j - 1, by omega⟩
  have h5 : n < 128 ^ 5 := Nat.lt_trans h (by decide)
  have hj' : n < 128 ^ (j + 1) := Nat.lt_of_lt_of_le h5 (Nat.pow_le_pow_right (by decide) (by omega))
  have := (reads_varint 4 j n h5 hj').bind (f := fun n => if n < 2 ^ 32 then Pure.pure n else fun _ => none)
    (c := []) (y := n) (by rw [if_pos h]; exact Reads.pure n)
  rwa [List.append_nil] at this

theorem reads_u32 {n : Nat} (h : n < 2 ^ 32) : Reads getU32 (putU32 n) n := reads_number (by decide) h
theorem reads_len {n : Nat} (h : n < 2 ^ 32) : Reads getU32 (putLen n) n := reads_number (by decide) h

/-- The number of a variant. -/
theorem reads_variant (d : UInt8) (h : d < 128) : Reads getU32 [d] d.toNat := by
  have h' : d.toNat < 128 := UInt8.lt_iff_toNat_lt.1 h
  have := reads_u32 (n := d.toNat) (by omega)
  have e : putU32 d.toNat = [d] := by
    simp only [putU32, putVarint, if_pos h']
    congr 1
    exact UInt8.ofNat_toNat
  rwa [e] at this

theorem reads_take (b : Bytes) : Reads (take b.length) b b := by
  intro rest
  simp [take]

theorem reads_bytes {b : Bytes} (h : b.length < 2 ^ 32) : Reads getBytes (putBytes b) b :=
  (reads_len h).bind (reads_take b)

theorem fromUtf8_utf8 (s : Str) : fromUtf8 (utf8 s) = some s := by
  have := List.utf8Decode?_utf8Encode (l := s)
  unfold fromUtf8 utf8
  rw [show (s.flatMap String.utf8EncodeChar).toByteArray = s.utf8Encode from rfl, this]
  simp

theorem length_putVarint_pos (j n : Nat) : 0 < (putVarint (j + 1) n).length := by
  unfold putVarint
  split <;> simp

theorem length_putBytes (b : Bytes) : b.length < (putBytes b).length := by
  have : 0 < (putVarint 10 b.length).length := length_putVarint_pos 9 b.length
  unfold putBytes putLen
  rw [List.length_append]
  omega

theorem reads_str {s : Str} (h : (putStr s).length ≤ 2 ^ 32) : Reads getStr (putStr s) s := by
  have hl := length_putBytes (utf8 s)
  have h : (putBytes (utf8 s)).length ≤ 2 ^ 32 := h
  have := (reads_bytes (b := utf8 s) (by omega)).bind (f := fun b bs => (fromUtf8 b).map (·, bs)) (c := []) (y := s)
    (fun rest => by rw [fromUtf8_utf8]; rfl)
  rwa [List.append_nil] at this

theorem reads_option {put : α → Bytes} {get : Reader β} {conv : α → β} {o : Option α}
    (h : ∀ x, o = some x → Reads get (put x) (conv x)) : Reads (getOption get) (putOption put o) (o.map conv) := by
  cases o with
  | none => exact (reads_byte 0).bind (c := []) (Reads.pure none)
  | some x => exact (reads_byte 1).bind (h x rfl).last

theorem reads_all {put : α → Bytes} {get : Reader β} {conv : α → β} : ∀ {xs : List α},
    (∀ x ∈ xs, Reads get (put x) (conv x)) → Reads (getAll get xs.length) (putAll put xs) (xs.map conv) := by
  intro xs
  induction xs with
  | nil => intro _; exact Reads.pure []
  | cons x xs ih =>
    intro h
    have h2 := ih fun y hy => h y (by simp [hy])
    have := (h x (by simp)).bind (f := fun y => getAll get xs.length >>= fun ys => Pure.pure (y :: ys)) h2.last
    exact this

theorem length_mem_putAll {put : α → Bytes} {xs : List α} {x : α} (h : x ∈ xs) :
    (put x).length ≤ (putAll put xs).length := by
  induction xs with
  | nil => cases h
  | cons y xs ih =>
    simp only [putAll, List.flatMap_cons, List.length_append] at ih ⊢
    rcases List.mem_cons.1 h with rfl | h
    · omega
    · have := ih h; omega

theorem length_le_putAll {put : α → Bytes} (hput : ∀ x, 0 < (put x).length) (xs : List α) :
    xs.length ≤ (putAll put xs).length := by
  induction xs with
  | nil => simp
  | cons y xs ih =>
    have := hput y
    simp only [putAll, List.flatMap_cons, List.length_append, List.length_cons] at ih ⊢
    omega

theorem length_putSeq {put : α → Bytes} (xs : List α) : (putAll put xs).length < (putSeq put xs).length := by
  have : 0 < (putVarint 10 xs.length).length := length_putVarint_pos 9 xs.length
  unfold putSeq putLen
  rw [List.length_append]
  omega

theorem reads_seq {put : α → Bytes} {get : Reader β} {conv : α → β} {xs : List α}
    (hput : ∀ x, 0 < (put x).length) (hl : (putSeq put xs).length ≤ 2 ^ 32)
    (h : ∀ x ∈ xs, (put x).length ≤ 2 ^ 32 → Reads get (put x) (conv x)) :
    Reads (getSeq get) (putSeq put xs) (xs.map conv) := by
  have h1 := length_putSeq (put := put) xs
  have h2 := length_le_putAll hput xs
  exact (reads_len (n := xs.length) (by omega)).bind (reads_all fun x hx => h x hx (by
    have := length_mem_putAll (put := put) hx
    omega))

/-! ### The parts of a patch -/

theorem length_putStr_pos (s : Str) : 0 < (putStr s).length := by
  have := length_putBytes (utf8 s)
  unfold putStr
  omega

theorem length_putU32_pos (n : Nat) : 0 < (putU32 n).length := length_putVarint_pos 4 n

theorem reads_name {q : QualName} (h : (putName q).length ≤ 2 ^ 32) : Reads getName (putName q) q.wire := by
  unfold putName at h ⊢
  simp only [List.length_append] at h
  rw [List.append_assoc]
  have hp : Reads (getOption getStr) (putOption putStr q.toProxy.prefix_) q.toProxy.prefix_ := by
    have := reads_option (put := putStr) (get := getStr) (conv := id) (o := q.toProxy.prefix_) fun x hx =>
      reads_str (by rw [hx] at h; simp only [putOption, List.length_cons] at h; omega)
    rwa [Option.map_id] at this
  exact hp.bind ((reads_str (by omega)).bind (reads_str (by omega)).last)

theorem length_putName_pos (q : QualName) : 0 < (putName q).length := by
  have := length_putStr_pos q.toProxy.loc
  unfold putName
  simp only [List.length_append]
  omega

theorem reads_attr {kv : QualName × Str} (h : (putAttr kv).length ≤ 2 ^ 32) :
    Reads getAttr (putAttr kv) (kv.1.wire, kv.2) := by
  unfold putAttr at h ⊢
  simp only [List.length_append] at h
  exact (reads_name (by omega)).bind (reads_str (by omega)).last

theorem length_putAttr_pos (kv : QualName × Str) : 0 < (putAttr kv).length := by
  have := length_putName_pos kv.1
  unfold putAttr
  simp only [List.length_append]
  omega

theorem reads_attrs {as : Attrs} (h : (putSeq putAttr as).length ≤ 2 ^ 32) :
    Reads (getSeq getAttr) (putSeq putAttr as) as.wire :=
  reads_seq length_putAttr_pos h fun _ _ => reads_attr

theorem length_putContent_pos : ∀ c : InsertContent, 0 < (putContent c).length := by
  intro c
  cases c <;> simp [putContent]

theorem putContents_eq : ∀ cs : List InsertContent, putContents cs = putAll putContent cs
  | [] => rfl
  | c :: cs => by simp [putContents, putAll, putContents_eq cs]

theorem wireL_eq : ∀ cs : List InsertContent, InsertContent.wireL cs = cs.map InsertContent.wire
  | [] => rfl
  | c :: cs => by simp [InsertContent.wireL, wireL_eq cs]

theorem putChildren_eq (cs : List InsertContent) : putLen cs.length ++ putContents cs = putSeq putContent cs := by
  rw [putContents_eq]; rfl

theorem reads_content : ∀ (k : Nat) (c : InsertContent), (putContent c).length ≤ k →
    (putContent c).length ≤ 2 ^ 32 → Reads (getContent k) (putContent c) c.wire := by
  intro k
  induction k with
  | zero =>
    intro c h
    have := length_putContent_pos c
    omega
  | succ k ih =>
    intro c h1 h2
    cases c with
    | element tag attrs cs =>
      simp only [putContent, putChildren_eq] at h1 h2 ⊢
      simp only [List.length_cons, List.length_append] at h1 h2
      rw [List.append_assoc]
      refine (reads_variant 0 (by decide)).bind ?_
      refine (reads_str (by omega)).bind ((reads_attrs (by omega)).bind ?_)
      have hcs : Reads (getSeq (getContent k)) (putSeq putContent cs) (cs.map InsertContent.wire) :=
        reads_seq length_putContent_pos (by omega) fun c hc hl => ih c (by
          have := length_mem_putAll (put := putContent) hc
          have := length_putSeq (put := putContent) cs
          omega) hl
      have := hcs.last (f := fun cs => InsertContent.element tag attrs.wire cs)
      simpa only [InsertContent.wire, wireL_eq] using this
    | text s =>
      simp only [putContent, List.length_cons] at h2 ⊢
      exact (reads_variant 1 (by decide)).bind (reads_str (by omega)).last
    | comment s =>
      simp only [putContent, List.length_cons] at h2 ⊢
      exact (reads_variant 2 (by decide)).bind (reads_str (by omega)).last

theorem reads_contents {k : Nat} {cs : List InsertContent} (h1 : (putSeq putContent cs).length ≤ k)
    (h2 : (putSeq putContent cs).length ≤ 2 ^ 32) :
    Reads (getSeq (getContent k)) (putSeq putContent cs) (InsertContent.wireL cs) := by
  rw [wireL_eq]
  refine reads_seq length_putContent_pos h2 fun c hc hl => reads_content k c ?_ hl
  have := length_mem_putAll (put := putContent) hc
  have := length_putSeq (put := putContent) cs
  omega

theorem reads_key {k : PropKey} (h : (putKey k).length ≤ 2 ^ 32) : Reads getKey (putKey k) k.wire := by
  cases k with
  | text => exact (reads_variant 0 (by decide)).bind (c := []) (Reads.pure _)
  | attr q =>
    simp only [putKey, List.length_cons] at h ⊢
    exact (reads_variant 1 (by decide)).bind (reads_name (by omega)).last

theorem reads_change {c : PropChange} (h : (putChange c).length ≤ 2 ^ 32) :
    Reads getChange (putChange c) ⟨c.name.wire, c.value⟩ := by
  unfold putChange at h ⊢
  simp only [List.length_append] at h
  have hv : Reads (getOption getStr) (putOption putStr c.value) c.value := by
    have := reads_option (put := putStr) (get := getStr) (conv := id) (o := c.value) fun x hx =>
      reads_str (by rw [hx] at h; simp only [putOption, List.length_cons] at h; omega)
    rwa [Option.map_id] at this
  exact (reads_key (by omega)).bind hv.last

theorem length_putChange_pos (c : PropChange) : 0 < (putChange c).length := by
  unfold putChange
  rw [List.length_append]
  have : 0 < (putKey c.name).length := by cases c.name <;> simp [putKey]
  omega

theorem reads_path {q : Path} (hq : ∀ i ∈ q, i < 2 ^ 32) (h : (putPath q).length ≤ 2 ^ 32) :
    Reads getPath (putPath q) q := by
  have := reads_seq (put := putU32) (get := getU32) (conv := id) (xs := q) length_putU32_pos h fun i hi _ =>
    reads_u32 (hq i hi)
  rwa [List.map_id] at this

theorem reads_slot {o : Option Nat} (h : ∀ s, o = some s → s < 2 ^ 32) :
    Reads (getOption getU32) (putOption putU32 o) o := by
  have := reads_option (put := putU32) (get := getU32) (conv := id) (o := o) fun s hs => reads_u32 (h s hs)
  rwa [Option.map_id] at this

/-- All numbers in the patch are numbers of 32 bits. -/
def Fits (P : Patch) : Prop := (∀ q ∈ P.paths, ∀ i ∈ q, i < 2 ^ 32) ∧ ∀ s, P.displaced = some s → s < 2 ^ 32

theorem reads_patch {P : Patch} {k : Nat} (hf : Fits P) (h1 : (putPatch P).length ≤ k)
    (h2 : (putPatch P).length ≤ 2 ^ 32) : Reads (getPatch k) (putPatch P) P.wire := by
  obtain ⟨hq, hs⟩ := hf
  cases P with
  | insertElement at_ tag attrs cs slot =>
    simp only [putPatch, putChildren_eq, List.length_cons, List.length_append] at h1 h2 ⊢
    simp only [List.append_assoc]
    exact (reads_variant 0 (by decide)).bind ((reads_path (hq at_ (by simp [Patch.paths])) (by omega)).bind
      ((reads_str (by omega)).bind ((reads_attrs (by omega)).bind ((reads_contents (by omega) (by omega)).bind
        (reads_slot hs).last))))
  | insertText at_ s slot =>
    simp only [putPatch, List.length_cons, List.length_append] at h1 h2 ⊢
    simp only [List.append_assoc]
    exact (reads_variant 1 (by decide)).bind ((reads_path (hq at_ (by simp [Patch.paths])) (by omega)).bind
      ((reads_str (by omega)).bind (reads_slot hs).last))
  | insertComment at_ s slot =>
    simp only [putPatch, List.length_cons, List.length_append] at h1 h2 ⊢
    simp only [List.append_assoc]
    exact (reads_variant 2 (by decide)).bind ((reads_path (hq at_ (by simp [Patch.paths])) (by omega)).bind
      ((reads_str (by omega)).bind (reads_slot hs).last))
  | remove q =>
    simp only [putPatch, List.length_cons] at h1 h2 ⊢
    exact (reads_variant 3 (by decide)).bind (reads_path (hq q (by simp [Patch.paths])) (by omega)).last
  | setText q s =>
    simp only [putPatch, List.length_cons, List.length_append] at h1 h2 ⊢
    exact (reads_variant 4 (by decide)).bind ((reads_path (hq q (by simp [Patch.paths])) (by omega)).bind
      (reads_str (by omega)).last)
  | setAttribute q n v =>
    simp only [putPatch, List.length_cons, List.length_append] at h1 h2 ⊢
    simp only [List.append_assoc]
    exact (reads_variant 5 (by decide)).bind ((reads_path (hq q (by simp [Patch.paths])) (by omega)).bind
      ((reads_name (by omega)).bind (reads_str (by omega)).last))
  | removeAttribute q n =>
    simp only [putPatch, List.length_cons, List.length_append] at h1 h2 ⊢
    exact (reads_variant 6 (by decide)).bind ((reads_path (hq q (by simp [Patch.paths])) (by omega)).bind
      (reads_name (by omega)).last)
  | move a b slot =>
    simp only [putPatch, List.length_cons, List.length_append] at h1 h2 ⊢
    simp only [List.append_assoc]
    exact (reads_variant 7 (by decide)).bind ((reads_path (hq a (by simp [Patch.paths])) (by omega)).bind
      ((reads_path (hq b (by simp [Patch.paths])) (by omega)).bind (reads_slot hs).last))
  | updateProps q ch =>
    simp only [putPatch, List.length_cons, List.length_append] at h1 h2 ⊢
    exact (reads_variant 8 (by decide)).bind ((reads_path (hq q (by simp [Patch.paths])) (by omega)).bind
      (reads_seq (xs := ch) (conv := fun c => PropChange.mk c.name.wire c.value) length_putChange_pos (by omega)
        fun _ _ => reads_change).last)
  | opaqueChanged q s =>
    simp only [putPatch, List.length_cons, List.length_append] at h1 h2 ⊢
    exact (reads_variant 9 (by decide)).bind ((reads_path (hq q (by simp [Patch.paths])) (by omega)).bind
      (reads_str (by omega)).last)

theorem length_putPatch_pos (P : Patch) : 0 < (putPatch P).length := by cases P <;> simp [putPatch]

theorem reads_patches {ps : List Patch} {k : Nat} (hf : ∀ P ∈ ps, Fits P) (hk : (writePatches ps).length ≤ k)
    (hl : (writePatches ps).length ≤ 2 ^ 32) : Reads (getSeq (getPatch k)) (writePatches ps) (ps.map Patch.wire) :=
  reads_seq length_putPatch_pos hl fun P hP h => reads_patch (hf P hP) (by
    have := length_mem_putAll (put := putPatch) hP
    have := length_putSeq (put := putPatch) ps
    unfold writePatches at hk
    omega) h

theorem fits_of_u32 {ps : List Patch} (h : ps.map Patch.u32 = ps) : ∀ P ∈ ps, Fits P := by
  have hq : ∀ q : Path, ∀ i ∈ q.u32, i < 2 ^ 32 := by
    intro q i hi
    obtain ⟨j, _, rfl⟩ := List.mem_map.1 hi
    exact Nat.mod_lt _ (by decide)
  have hs : ∀ o : Option Nat, ∀ s, o.map (· % 2 ^ 32) = some s → s < 2 ^ 32 := by
    intro o s hs
    obtain ⟨j, _, rfl⟩ := Option.map_eq_some_iff.1 hs
    exact Nat.mod_lt _ (by decide)
  intro P hP
  rw [← h] at hP
  obtain ⟨Q, _, rfl⟩ := List.mem_map.1 hP
  constructor
  · cases Q <;> simp only [Patch.u32, Patch.paths, List.mem_cons, List.not_mem_nil, or_false] <;>
      rintro q (rfl | rfl) <;> exact hq _
  · cases Q <;> simp only [Patch.u32, Patch.displaced] <;>
      first
      | exact hs _
      | (intro s h; cases h)

/-! ### Readers take a definite part of the bytes -/

/-- What the reader makes of the bytes depends on those it takes only. -/
def Solid (get : Reader α) : Prop :=
  ∀ b x r, get b = some (x, r) → ∃ u, b = u ++ r ∧ Reads get u x

theorem Solid.pure (x : α) : Solid (Pure.pure x) := by
  intro b y r h
  cases h
  exact ⟨[], rfl, Reads.pure x⟩

theorem Solid.fail : Solid (fun _ => none : Reader α) := by
  intro b y r h
  cases h

theorem Solid.bind {g : Reader α} {f : α → Reader β} (h1 : Solid g) (h2 : ∀ x, Solid (f x)) : Solid (g >>= f) := by
  intro b y r h
  have h : (g b).bind (fun p => f p.1 p.2) = some (y, r) := h
  obtain ⟨⟨x, c⟩, hx, hy⟩ := Option.bind_eq_some_iff.1 h
  obtain ⟨u, rfl, hu⟩ := h1 _ _ _ hx
  obtain ⟨v, rfl, hv⟩ := h2 x _ _ _ hy
  exact ⟨u ++ v, (List.append_assoc _ _ _).symm, hu.bind hv⟩

theorem Solid.ite {p : Prop} [Decidable p] {g g' : Reader α} (h1 : Solid g) (h2 : Solid g') :
    Solid (if p then g else g') := by
  split <;> assumption

theorem solid_byte : Solid getByte := by
  intro b x r h
  cases b with
  | nil => cases h
  | cons y b => cases h; exact ⟨[x], rfl, reads_byte x⟩

theorem solid_varint : ∀ k, Solid (getVarint k)
  | 0 => Solid.fail
  | k + 1 => solid_byte.bind fun _ => (Solid.pure _).ite ((solid_varint k).bind fun _ => Solid.pure _)

theorem solid_u32 : Solid getU32 := (solid_varint 5).bind fun _ => (Solid.pure _).ite Solid.fail

theorem solid_take (n : Nat) : Solid (take n) := by
  intro b x r h
  unfold take at h
  split at h
  · rename_i hn
    cases h
    refine ⟨b.take n, (List.take_append_drop n b).symm, ?_⟩
    have := reads_take (b.take n)
    rwa [List.length_take_of_le hn] at this
  · cases h

theorem solid_bytes : Solid getBytes := solid_u32.bind solid_take

theorem solid_str : Solid getStr := by
  refine solid_bytes.bind fun b => ?_
  intro c s r h
  obtain ⟨t, ht, he⟩ := Option.map_eq_some_iff.1 h
  cases he
  exact ⟨[], rfl, fun rest => by show (fromUtf8 b).map _ = _; rw [ht]; rfl⟩

theorem solid_option {g : Reader α} (h : Solid g) : Solid (getOption g) :=
  solid_byte.bind fun _ => (Solid.pure _).ite ((h.bind fun _ => Solid.pure _).ite Solid.fail)

theorem solid_all {g : Reader α} (h : Solid g) : ∀ n, Solid (getAll g n)
  | 0 => Solid.pure _
  | n + 1 => h.bind fun _ => (solid_all h n).bind fun _ => Solid.pure _

theorem solid_seq {g : Reader α} (h : Solid g) : Solid (getSeq g) := solid_u32.bind (solid_all h)

theorem solid_name : Solid getName :=
  (solid_option solid_str).bind fun _ => solid_str.bind fun _ => solid_str.bind fun _ => Solid.pure _

theorem solid_attr : Solid getAttr := solid_name.bind fun _ => solid_str.bind fun _ => Solid.pure _

theorem solid_content : ∀ k, Solid (getContent k)
  | 0 => Solid.fail
  | k + 1 => by
    refine solid_u32.bind fun d => ?_
    split
    · exact solid_str.bind fun _ => (solid_seq solid_attr).bind fun _ =>
        (solid_seq (solid_content k)).bind fun _ => Solid.pure _
    · exact solid_str.bind fun _ => Solid.pure _
    · exact solid_str.bind fun _ => Solid.pure _
    · exact Solid.fail

theorem solid_key : Solid getKey := by
  refine solid_u32.bind fun d => ?_
  split
  · exact Solid.pure _
  · exact solid_name.bind fun _ => Solid.pure _
  · exact Solid.fail

theorem solid_change : Solid getChange := solid_key.bind fun _ => (solid_option solid_str).bind fun _ => Solid.pure _

theorem solid_path : Solid getPath := solid_seq solid_u32

theorem solid_patch (k : Nat) : Solid (getPatch k) := by
  have hs := solid_option solid_u32
  have hp := solid_path
  refine solid_u32.bind fun d => ?_
  split
  · exact hp.bind fun _ => solid_str.bind fun _ => (solid_seq solid_attr).bind fun _ =>
      (solid_seq (solid_content k)).bind fun _ => hs.bind fun _ => Solid.pure _
  · exact hp.bind fun _ => solid_str.bind fun _ => hs.bind fun _ => Solid.pure _
  · exact hp.bind fun _ => solid_str.bind fun _ => hs.bind fun _ => Solid.pure _
  · exact hp.bind fun _ => Solid.pure _
  · exact hp.bind fun _ => solid_str.bind fun _ => Solid.pure _
  · exact hp.bind fun _ => solid_name.bind fun _ => solid_str.bind fun _ => Solid.pure _
  · exact hp.bind fun _ => solid_name.bind fun _ => Solid.pure _
  · exact hp.bind fun _ => hp.bind fun _ => hs.bind fun _ => Solid.pure _
  · exact hp.bind fun _ => (solid_seq solid_change).bind fun _ => Solid.pure _
  · exact hp.bind fun _ => solid_str.bind fun _ => Solid.pure _
  · exact Solid.fail

theorem solid_event : Solid getEvent := by
  refine solid_u32.bind fun d => ?_
  split
  · exact Solid.pure _
  · exact solid_str.bind fun _ => solid_bytes.bind fun _ => Solid.pure _
  · exact solid_str.bind fun _ => Solid.pure _
  · exact Solid.fail

/-- Part of what is read is not read. -/
theorem Solid.short {g : Reader α} (h : Solid g) {b c : Bytes} {x : α} (hr : Reads g (b ++ c) x) (hc : c ≠ []) :
    g b = none := by
  cases hb : g b with
  | none => rfl
  | some p =>
    obtain ⟨u, hu, hr'⟩ := h b p.1 p.2 hb
    have h1 := hr []
    rw [List.append_nil, hu, List.append_assoc, hr'] at h1
    simp only [Option.some.injEq, Prod.mk.injEq, List.append_eq_nil_iff] at h1
    exact absurd h1.2.2 hc

/-! ### A larger depth reads more -/

/-- The second reader reads all that the first reads. -/
def More (g g' : Reader α) : Prop := ∀ b y, g b = some y → g' b = some y

theorem More.rfl {g : Reader α} : More g g := fun _ _ h => h

theorem More.bind {g g' : Reader α} {f f' : α → Reader β} (h1 : More g g') (h2 : ∀ x, More (f x) (f' x)) :
    More (g >>= f) (g' >>= f') := by
  intro b y h
  have h : (g b).bind (fun p => f p.1 p.2) = some y := h
  obtain ⟨⟨x, c⟩, hx, hy⟩ := Option.bind_eq_some_iff.1 h
  show (g' b).bind (fun p => f' p.1 p.2) = some y
  rw [h1 _ _ hx]
  exact h2 x _ _ hy

theorem more_all {g g' : Reader α} (h : More g g') : ∀ n, More (getAll g n) (getAll g' n)
  | 0 => More.rfl
  | n + 1 => h.bind fun _ => (more_all h n).bind fun _ => More.rfl

theorem more_seq {g g' : Reader α} (h : More g g') : More (getSeq g) (getSeq g') := More.rfl.bind (more_all h)

theorem more_content : ∀ k j, k ≤ j → More (getContent k) (getContent j)
  | 0, _, _ => fun _ _ h => nomatch h
  | k + 1, j, h => by
    obtain ⟨j, rfl⟩ : ∃ i, j = i + 1 := ⟨j - 1, by omega⟩
    refine More.rfl.bind fun d => ?_
    split
    · exact More.rfl.bind fun _ => More.rfl.bind fun _ =>
        (more_seq (more_content k j (by omega))).bind fun _ => More.rfl
    · exact More.rfl
    · exact More.rfl
    · exact More.rfl

theorem more_patch {k j : Nat} (h : k ≤ j) : More (getPatch k) (getPatch j) := by
  refine More.rfl.bind fun d => ?_
  split
  · exact More.rfl.bind fun _ => More.rfl.bind fun _ => More.rfl.bind fun _ =>
      (more_seq (more_content k j h)).bind fun _ => More.rfl
  all_goals exact More.rfl

end Hotmeal.Postcard
