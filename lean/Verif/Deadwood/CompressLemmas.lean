import Verif.Deadwood.BailiwickProps
import Verif.Deadwood.DnsStrLemmas
/-!
# Lemmas about compression of one name

`M` is what is known to stay in the output.  Every entry of the stack is the place
of a finished name (`GoodE`) or of labels of the name being written (`Run`).
-/

namespace Dw
namespace DwStr
open Spec

/-- Labels one after the other. -/
inductive Run (m : Mem) : Nat → List (List UInt8) → Nat → Prop
  | nil {i} : Run m i [] i
  | cons {i l ls j} : LabelAt m i l → Run m (i + (l.length + 1)) ls j → Run m i (l :: ls) j

/-- Everything known in `m` is known in `m'`. -/
def MemLe (m m' : Mem) : Prop := ∀ i v, m i = some v → m' i = some v

theorem LabelAt.mono {m m' : Mem} (h : MemLe m m') {i : Nat} {l : List UInt8} (hl : LabelAt m i l) :
    LabelAt m' i l :=
  ⟨hl.pos, hl.le, h _ _ hl.len, fun j hj => h _ _ (hl.bytes j hj)⟩

theorem Run.mono {m m' : Mem} (h : MemLe m m') {i j : Nat} {ls : List (List UInt8)} (hr : Run m i ls j) :
    Run m' i ls j := by
  induction hr with
  | nil => exact .nil
  | cons hl _ ih => exact .cons (LabelAt.mono h hl) ih

theorem Run.snoc {m : Mem} {i j : Nat} {ls : List (List UInt8)} {l : List UInt8} (hr : Run m i ls j)
    (hl : LabelAt m j l) : Run m i (ls ++ [l]) (j + (l.length + 1)) := by
  induction hr with
  | nil => exact .cons hl .nil
  | cons h _ ih => exact .cons h (ih hl)

theorem Run.oneHop {m q : Mem} {plen qlen i j : Nat} {ls rest : List (List UInt8)} (hr : Run m i ls j)
    (h : OneHop m q plen qlen false j rest) : OneHop m q plen qlen false i (ls ++ rest) := by
  induction hr with
  | nil => exact h
  | cons hl _ ih => exact .label hl (ih h)

theorem ptrTarget_mono {plen plen' qlen v : Nat} {t : Bool × Nat} (h : plen ≤ plen')
    (ht : ptrTarget plen qlen v = some t) : ptrTarget plen' qlen v = some t := by
  unfold ptrTarget at ht ⊢
  split at ht
  · rename_i g; rw [if_pos g]; exact ht
  · rename_i g
    rw [if_neg g]
    split at ht
    · rename_i g'; rw [if_pos (by omega)]; exact ht
    · cases ht

theorem _root_.Spec.OneHop.mono {p p' q : Mem} {plen plen' qlen : Nat} (h : MemLe p p') (hl : plen ≤ plen')
    {b : Bool} {i : Nat} {ls : List (List UInt8)} (ho : OneHop p q plen qlen b i ls) :
    OneHop p' q plen' qlen b i ls := by
  have hsel : ∀ b, MemLe (sel p q b) (sel p' q b) := by
    intro b; cases b
    · exact h
    · intro i v hv; exact hv
  induction ho with
  | @root b i g => exact .root (hsel b _ _ g)
  | @label b i l ls g _ ih => exact .label (LabelAt.mono (hsel b) g) ih
  | @pointer i x y z b₁ i₁ ls g1 g2 g3 g4 g5 g6 _ ih =>
    exact .pointer (h _ _ g1) g2 (h _ _ g3) (ptrTarget_mono hl g4) (hsel b₁ _ _ g5) g6 ih

/-- A name none of whose pointers leads to another pointer, into the header or to a later place. -/
inductive BackHop (p q : Mem) (plen qlen : Nat) : Bool → Nat → List (List UInt8) → Prop
  | root {b i} : sel p q b i = some 0 → BackHop p q plen qlen b i []
  | label {b i l ls} : LabelAt (sel p q b) i l → BackHop p q plen qlen b (i + (l.length + 1)) ls →
      BackHop p q plen qlen b i (l :: ls)
  | pointer {i x y z b₁ i₁ ls} : p i = some x → 192 ≤ x → p (i + 1) = some y →
      ptrTarget plen qlen (x.toNat % 64 * 256 + y.toNat) = some (b₁, i₁) →
      12 ≤ x.toNat % 64 * 256 + y.toNat → (b₁ = false → i₁ < i) →
      sel p q b₁ i₁ = some z → z < 64 → BackHop p q plen qlen b₁ i₁ ls →
      BackHop p q plen qlen false i ls

theorem BackHop.oneHop {p q : Mem} {plen qlen : Nat} {b : Bool} {i : Nat} {ls : List (List UInt8)}
    (h : BackHop p q plen qlen b i ls) : OneHop p q plen qlen b i ls := by
  induction h with
  | root h => exact .root h
  | label h _ ih => exact .label h ih
  | pointer h1 h2 h3 h4 _ _ h7 h8 _ ih => exact .pointer h1 h2 h3 h4 h7 h8 ih

theorem PlainAt.backHop {p q : Mem} {plen qlen : Nat} {b : Bool} {i : Nat} {ls : List (List UInt8)}
    (h : PlainAt (sel p q b) i ls) : BackHop p q plen qlen b i ls := by
  induction h with
  | root h => exact .root h
  | label h _ ih => exact .label h ih

theorem BackHop.mono {p p' q : Mem} {plen plen' qlen : Nat} (h : MemLe p p') (hl : plen ≤ plen')
    {b : Bool} {i : Nat} {ls : List (List UInt8)} (ho : BackHop p q plen qlen b i ls) :
    BackHop p' q plen' qlen b i ls := by
  have hsel : ∀ b, MemLe (sel p q b) (sel p' q b) := by
    intro b; cases b
    · exact h
    · intro i v hv; exact hv
  induction ho with
  | @root b i g => exact .root (hsel b _ _ g)
  | @label b i l ls g _ ih => exact .label (LabelAt.mono (hsel b) g) ih
  | @pointer i x y z b₁ i₁ ls g1 g2 g3 g4 g5 g6 g7 g8 _ ih =>
    exact .pointer (h _ _ g1) g2 (h _ _ g3) (ptrTarget_mono hl g4) g5 g6 (hsel b₁ _ _ g7) g8 ih

theorem Run.backHop {m q : Mem} {plen qlen i j : Nat} {ls rest : List (List UInt8)} (hr : Run m i ls j)
    (h : BackHop m q plen qlen false j rest) : BackHop m q plen qlen false i (ls ++ rest) := by
  induction hr with
  | nil => exact h
  | cons hl _ ih => exact .label hl (ih h)

/-- Known before `n`, new from there. -/
def ext (M : Mem) (n : Nat) (m : Mem) : Mem := fun i => if i < n then M i else m i

theorem ext_le {M m : Mem} {n : Nat} (h : ∀ i v, M i = some v → i < n) : MemLe M (ext M n m) := by
  intro i v hv
  simp only [ext, if_pos (h i v hv)]; exact hv

/-- An entry of the stack is the place of a finished name. -/
def GoodE (M : Mem) (clen : Nat) (q : DwStr) (e : Nat) (ls : List (List UInt8)) : Prop :=
  ls ≠ [] ∧ ((32768 ≤ e ∧ e < 65536 ∧ PlainAt q.mem (e % 16384) ls) ∨
  (e < 16384 ∧ BackHop M q.mem clen q.len false e ls ∧ ∃ z, M e = some z ∧ z < 64))

theorem GoodE.mono {M M' : Mem} (h : MemLe M M') {n n' : Nat} (hn : n ≤ n') {q : DwStr} {e : Nat}
    {ls : List (List UInt8)} (g : GoodE M n q e ls) : GoodE M' n' q e ls := by
  obtain ⟨h0, g | ⟨h1, h2, z, h3, h4⟩⟩ := g
  · exact ⟨h0, Or.inl g⟩
  · exact ⟨h0, Or.inr ⟨h1, h2.mono h hn, z, h _ _ h3, h4⟩⟩

/-- The stack as bytes. -/
def enc16 (es : List Nat) : List UInt8 := es.flatMap be16

theorem enc16_length (es : List Nat) : (enc16 es).length = 2 * es.length := by
  induction es with
  | nil => rfl
  | cons e es ih =>
    rw [show enc16 (e :: es) = be16 e ++ enc16 es by simp [enc16], List.length_append, ih]
    simp [be16]; omega

/-- No part of the name is immediately repeated (ignoring case). -/
def NoRepeat (ls : List (List UInt8)) : Prop :=
  ∀ a w w' b, ls = a ++ w ++ w' ++ b → w ≠ [] → ¬ SameName w w'

theorem inProg_no {u c : DwStr} (hu : Usable u) (hc : Usable c) {q : DwStr} :
    ∀ (n : Nat) {uo place : Nat} {us w : List (List UInt8)}, w ≠ [] →
    (∀ w' b, us = w' ++ b → ¬ SameName w w') →
    PlainAt u.mem uo us → Run c.mem place w c.len →
    isYes (dnameLoop u c (some q) n uo place false) = .ok false := by
  intro n
  induction n with
  | zero => intro uo place us w _ _ _ _; rfl
  | succ n ih =>
    intro uo place us w hw hno hP hR
    cases hR with
    | nil => exact absurd rfl hw
    | @cons i l ls j hl hR =>
      obtain ⟨hLu, hTu⟩ := PlainAt.first hP
      have hz : UInt8.ofNat l.length < 64 := by
        rw [UInt8.lt_iff_toNat_lt, ofNat_len hl.le]; have := hl.le; simp; omega
      rw [dnameLoop, follow_lit hc (q := some q) (b := false) (z := UInt8.ofNat l.length) (by simp) hl.len hz, Res.ok_bind]
      simp only [pick, Bool.false_eq_true, if_false]
      rw [lab_same hu hc hLu hl.lab]
      simp only [isYes, Res.ok_bind]
      by_cases he : (hd us).map lower = l.map lower
      · simp only [decide_eq_true he, Bool.not_true, Bool.false_eq_true, if_false]
        have hll : (hd us).length = l.length := by simpa using congrArg List.length he
        cases us with
        | nil => simp [hd] at hll; have := hl.pos; omega
        | cons x xs =>
          rw [show hd (x :: xs) = x from rfl] at *
          have hls : ls ≠ [] := by
            rintro rfl
            apply hno [x] xs (by simp)
            simp [SameName, he]
          have hrec := ih (us := xs) hls (by
            intro w' b hb hs
            apply hno (x :: w') b (by simp [hb])
            rw [sameName_cons]
            exact ⟨he.symm, hs⟩) (hTu (by simp)).1 hR
          rw [mem_peek hLu.len, Res.ok_bind, ofNat_len hLu.le]
          have hne : ¬ UInt8.ofNat x.length = 0 := by
            intro h
            have h2 := ofNat_len hLu.le
            rw [h] at h2
            have := hl.pos
            simp at h2; omega
          rw [if_neg hne]
          by_cases h4 : 64 < UInt8.ofNat x.length ∨ uo + x.length ≥ u.len
          · rw [if_pos h4]
          · rw [if_neg h4]
            by_cases h5 : place + x.length ≥ c.len
            · rw [if_pos h5]
            · rw [if_neg h5, hll]
              rw [hll] at hrec
              exact hrec
      · simp only [decide_eq_false he, Bool.not_false, if_true]

/-- What is known about an entry while the labels `d` of a name are written. -/
def EntryOk (M : Mem) (clen : Nat) (q : DwStr) (d : List (List UInt8)) (e : Nat) : Prop :=
  (∃ ls, GoodE M clen q e ls) ∨ (e < 16384 ∧ ∃ w, w ≠ [] ∧ w <:+ d ∧ Run M e w clen)

theorem entryOk_lt {M : Mem} {clen : Nat} {q : DwStr} {d : List (List UInt8)} {e : Nat}
    (h : EntryOk M clen q d e) : e < 65536 := by
  rcases h with ⟨ls, -, ⟨_, h, _⟩ | ⟨h, _⟩⟩ | ⟨h, _⟩ <;> omega

theorem dnameSame_loop {u c : DwStr} (hu : Usable u) (hc : Usable c) {uo co : Nat} (h1 : uo ≤ u.len)
    (h2 : co ≤ c.len) (q : Option DwStr) : dnameSame u uo c co q = dnameLoop u c q 300 uo co false := by
  rw [dnameSame]
  simp only [hu.sane, hc.sane, Bool.not_true, Bool.or_self,
    decide_eq_false (show ¬ uo > u.len by omega), decide_eq_false (show ¬ co > c.len by omega),
    Bool.false_eq_true, if_false]

theorem _root_.Spec.OneHop.lt {c q : DwStr} {plen qlen : Nat} (hc : Usable c) {co : Nat} {cs : List (List UInt8)}
    (h : OneHop c.mem q.mem plen qlen false co cs) : co < c.len := by
  cases h with
  | root h => exact mem_lt hc h
  | label h => exact mem_lt hc h.len
  | pointer h => exact mem_lt hc h

/-- The value of a pointer for an entry. -/
def ptrOf (q : DwStr) (e : Nat) : Nat := if e ≥ 32768 then 12 + e % 16384 else 12 + q.len + 2 + e % 16384

theorem seekLoop_spec {u c q s : DwStr} (hu : Usable u) (hc : Usable c) (hq : Usable q) (hs : Usable s)
    {M : Mem} (hM : MemLe M c.mem) {uo : Nat} {us d : List (List UInt8)} (hn : us.length < 300)
    (hP : PlainAt u.mem uo us) (hno : NoRepeat (d ++ us)) :
    ∀ (n : Nat) (pre post : List Nat), s.contents = enc16 (pre ++ post) →
    (∀ e ∈ post, EntryOk M c.len q d e) →
    seekLoop u uo c q s n (2 * pre.length) = .ok none ∨
    ∃ e ls, e ∈ post ∧ GoodE M c.len q e ls ∧ SameName us ls ∧
      seekLoop u uo c q s n (2 * pre.length) = .ok (some (ptrOf q e)) := by
  intro n
  induction n with
  | zero => intro pre post _ _; exact Or.inl rfl
  | succ n ih =>
    intro pre post hcont hok
    rw [seekLoop]
    have hsl : s.len = 2 * (pre.length + post.length) := by
      rw [← hs.clen, hcont, enc16_length, List.length_append]
    cases post with
    | nil => rw [if_neg (by simp at hsl; omega)]; exact Or.inl rfl
    | cons e post =>
      rw [if_pos (by simp at hsl; omega)]
      have he := hok e (by simp)
      have helt := entryOk_lt he
      have hf : s.fetchU16 ((2 * pre.length : Nat) : Int) = .ok e := by
        apply fetch_be16 hs (pre := enc16 pre) (post := enc16 post) helt
        · rw [hcont]; simp [enc16]
        · rw [enc16_length]
      rw [hf, Res.ok_bind]
      simp only
      have hul := PlainAt.lt hu hP
      have hrest : seekLoop u uo c q s n (2 * pre.length + 2) = .ok none ∨
          ∃ e' ls, e' ∈ e :: post ∧ GoodE M c.len q e' ls ∧ SameName us ls ∧
            seekLoop u uo c q s n (2 * pre.length + 2) = .ok (some (ptrOf q e')) := by
        have := ih (pre ++ [e]) post (by rw [hcont]; simp) (fun x hx => hok x (by simp [hx]))
        rw [show 2 * (pre ++ [e]).length = 2 * pre.length + 2 by simp; omega] at this
        rcases this with h | ⟨e', ls, h1, h2, h3, h4⟩
        · exact Or.inl h
        · exact Or.inr ⟨e', ls, by simp [h1], h2, h3, h4⟩
      rcases he with ⟨ls, hg⟩ | ⟨he16, w, hw, hsuf, hR⟩
      · obtain ⟨g0, ⟨g1, g2, g3⟩ | ⟨g1, g2, g3⟩⟩ := hg
        · rw [if_pos g1, dnameSame_plain hu hq hn hP g3]
          simp only [isYes, Res.ok_bind]
          by_cases hsn : SameName us ls
          · simp only [decide_eq_true hsn, if_true]
            exact Or.inr ⟨e, ls, by simp, ⟨g0, Or.inl ⟨g1, g2, g3⟩⟩, hsn, by simp [ptrOf, g1]⟩
          · simp only [decide_eq_false hsn, Bool.false_eq_true, if_false]
            exact hrest
        · rw [if_neg (by omega), Nat.mod_eq_of_lt g1,
            dnameSame_exact (q := some q) hu hc (fun x hx => by cases hx; exact hq) hn hP
              (OneHop.mono hM (Nat.le_refl _) g2.oneHop)]
          simp only [isYes, Res.ok_bind]
          by_cases hsn : SameName us ls
          · simp only [decide_eq_true hsn, if_true]
            exact Or.inr ⟨e, ls, by simp, ⟨g0, Or.inr ⟨g1, g2, g3⟩⟩, hsn, by
              rw [ptrOf, if_neg (by omega), Nat.mod_eq_of_lt g1]⟩
          · simp only [decide_eq_false hsn, Bool.false_eq_true, if_false]
            exact hrest
      · have hR' := hR.mono hM
        have hel : e ≤ c.len := by
          cases hR' with
          | nil => exact absurd rfl hw
          | cons h => have := mem_lt hc h.len; omega
        rw [if_neg (by omega), Nat.mod_eq_of_lt he16, dnameSame_loop hu hc (by omega) hel,
          inProg_no hu hc 300 hw ?_ hP hR', Res.ok_bind]
        · simp only [Bool.false_eq_true, if_false]
          exact hrest
        · intro w' b hb hsn
          obtain ⟨a, ha⟩ := hsuf
          exact hno a w w' b (by rw [ha, hb]; simp) hw hsn

theorem pushU16_safe {s : DwStr} (h : Usable s) {v : Nat} :
    pushU16 v s = .err ∨ ∃ s', pushU16 v s = .ok s' ∧ Usable s' ∧ s'.max = s.max ∧
      s'.contents = s.contents ++ be16 v := by
  by_cases hf : s.contents.length + 2 < s.max
  · exact Or.inr ((pushU16_exact v h).2 hf)
  · exact Or.inl ((pushU16_exact v h).1 (by omega))

theorem mem_append {c c' : DwStr} {x : List UInt8} (h : c'.contents = c.contents ++ x) : MemLe c.mem c'.mem := by
  intro i v hv
  simp only [mem, memOf] at hv ⊢
  rw [h, List.getElem?_append_left (List.getElem?_eq_some_iff.1 hv).1, hv]

theorem mem_new {c c' : DwStr} (hc : Usable c) {x : List UInt8} (h : c'.contents = c.contents ++ x) {j : Nat}
    (hj : j < x.length) : c'.mem (c.len + j) = some x[j] := by
  simp only [mem, memOf]
  rw [h, List.getElem?_append_right (by rw [hc.clen]; omega), hc.clen]
  rw [show c.len + j - c.len = j by omega]
  exact List.getElem?_eq_getElem hj

/-- The labels of a plain name as a piece of the contents. -/
theorem PlainAt.drop {u : DwStr} (hu : Usable u) {i : Nat} {ls : List (List UInt8)} (h : PlainAt u.mem i ls) :
    LabelsOk ls ∧ ∃ rest, u.contents.drop i = encName ls ++ rest := by
  induction h with
  | @root i h =>
    refine ⟨(by intro l hl; cases hl), u.contents.drop (i + 1), ?_⟩
    simp only [mem, memOf] at h
    obtain ⟨h1, h2⟩ := List.getElem?_eq_some_iff.1 h
    rw [List.drop_eq_getElem_cons h1, h2]
    simp [encName, encLabels]
  | @label i l ls hl _ ih =>
    obtain ⟨h1, rest, h2⟩ := ih
    obtain ⟨h3, h4⟩ := LabelAt.drop hu hl
    refine ⟨fun x hx => ?_, rest, ?_⟩
    · rcases List.mem_cons.1 hx with rfl | hx
      · exact ⟨hl.pos, hl.le⟩
      · exact h1 x hx
    · rw [← List.take_append_drop (l.length + 1) (u.contents.drop i), h4, List.drop_drop, h2, encName_cons]
      simp

theorem getDnEnd_plain {u : DwStr} (hu : Usable u) {i : Nat} {ls : List (List UInt8)}
    (h : PlainAt u.mem i ls) (hn : ls.length < 200) : getDnEnd u i = .ok (i + (encName ls).length) := by
  obtain ⟨h1, rest, h2⟩ := PlainAt.drop hu h
  apply getDnEnd_of hu
  refine ⟨ls, 0, rest, by rw [h2]; simp [encName], h1, hn, Or.inl ⟨rfl, ?_⟩⟩
  simp [encName]; omega

theorem ptr_bytes {p : Nat} (hp : p < 16384) :
    192 ≤ UInt8.ofNat ((p + 49152) / 256) ∧
    (UInt8.ofNat ((p + 49152) / 256)).toNat % 64 * 256 + (UInt8.ofNat (p + 49152)).toNat = p := by
  constructor
  · rw [UInt8.le_iff_toNat_le]; simp; omega
  · simp; omega

theorem ext_ext {M : Mem} {c c1 c' : DwStr} (hc1 : Usable c1) {x : List UInt8}
    (hle : c.len ≤ c1.len) (h : c'.contents = c1.contents ++ x) :
    ext (ext M c.len c1.mem) c1.len c'.mem = ext M c.len c'.mem := by
  funext i
  simp only [ext]
  by_cases h1 : i < c.len
  · rw [if_pos (by omega), if_pos h1, if_pos h1]
  · rw [if_neg h1, if_neg h1]
    by_cases h2 : i < c1.len
    · rw [if_pos h2]
      obtain ⟨v, -, hv⟩ := peek_mem hc1 h2
      rw [hv, mem_append h _ _ hv]
    · rw [if_neg h2]

theorem ext_mem_le {M : Mem} {c c' : DwStr} (hM : MemLe M c.mem) {x : List UInt8}
    (h : c'.contents = c.contents ++ x) : MemLe (ext M c.len c'.mem) c'.mem := by
  intro i v hv
  simp only [ext] at hv
  split at hv
  · exact mem_append h _ _ (hM _ _ hv)
  · exact hv

theorem memLe_lt {M : Mem} {c : DwStr} (hc : Usable c) (hM : MemLe M c.mem) :
    ∀ i v, M i = some v → i < c.len := fun i v h => mem_lt hc (hM i v h)

/-- Finished entries after the name is finished at `clen`. -/
theorem entry_finish {M M' : Mem} {clen clen' : Nat} {q : DwStr} {d : List (List UInt8)} {e : Nat}
    (h : EntryOk M clen q d e) (hM : MemLe M M') (hl : clen ≤ clen') {rest : List (List UInt8)}
    (hr : BackHop M' q.mem clen' q.len false clen rest) : ∃ ls, GoodE M' clen' q e ls := by
  rcases h with ⟨ls, hg⟩ | ⟨h1, w, h2, h3, h4⟩
  · exact ⟨ls, hg.mono hM hl⟩
  · have h5 := h4.mono hM
    refine ⟨w ++ rest, by simp [h2], Or.inr ⟨h1, h5.backHop hr, ?_⟩⟩
    cases h5 with
    | nil => exact absurd rfl h2
    | @cons _ l _ _ hl =>
      refine ⟨_, hl.len, ?_⟩
      rw [UInt8.lt_iff_toNat_lt, ofNat_len hl.le]; have := hl.le; simp; omega

theorem encName_two (us : List (List UInt8)) (h : us ≠ []) : 2 ≤ (encName us).length := by
  cases us with
  | nil => exact absurd rfl h
  | cons l ls => rw [encName_cons]; simp [encName]; omega

end DwStr
end Dw
