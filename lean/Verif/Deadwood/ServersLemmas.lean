import Verif.Deadwood.ServersModel
import Verif.Deadwood.AclParse
import Verif.Deadwood.AliasLemmas
import Verif.Spec.Servers
/-!
# Lemmas for C124
-/

namespace Dw
namespace Conf
open DwStr Spec Acl

/-- What is known of the string being made. -/
structure Made (s : DwStr) (m : Nat) (c : List UInt8) : Prop where
  usable : Usable s
  max : s.max = m
  contents : s.contents = c

theorem Made.len {s : DwStr} {m : Nat} {c : List UInt8} (h : Made s m c) : s.len = c.length := by
  rw [← h.contents, h.usable.clen]

theorem put8 {s : DwStr} {m : Nat} {c : List UInt8} (h : Made s m c) (v : Nat) (hm : m ≤ 1000) (hf : c.length + 1 < m) :
    ∃ s', s.putU8 v (-1) = .ok s' ∧ Made s' m (c ++ [UInt8.ofNat v]) := by
  have hc := h.contents
  obtain ⟨s', h1, h2, h3, h4⟩ := putU8_end v h.usable (by rw [hc]; omega)
  have hmax := h.max
  have hl : s'.len = c.length + 1 := by
    have e : s.putU8 v (-1) = .ok { s with len := s.len + 1, buf := s.buf.set s.len (UInt8.ofNat v) } := by
      have hw := h.usable.wf
      unfold WF at hw
      have hlt := h.usable.lt
      have e : (s.len : Int) + (-1) + 1 = s.len := by omega
      have eu : u32 (s.len : Int) = s.len := u32_nat _ (by omega)
      have hm : s.len % 0x1000000 = s.len := Nat.mod_eq_of_lt (by omega)
      unfold putU8
      simp only [h.usable.sane, Bool.not_true, Bool.false_eq_true, if_false, e, eu, hm, if_true,
        show ((-1 : Int) < 0) from by decide, Int.toNat_natCast]
      rw [if_neg (by omega), if_neg (by omega), poke_ok _ (by simp; omega)]
      rfl
    rw [h1] at e
    injection e with e
    rw [e]
    show s.len + 1 = _
    rw [h.len]
  exact ⟨s', h1, ⟨h2, by omega, by omega⟩, by omega, by rw [h4, hc]⟩

theorem put16 {s : DwStr} {m : Nat} {c : List UInt8} (h : Made s m c) (v : Nat) (hm : m ≤ 1000) (hf : c.length + 2 < m) :
    ∃ s', s.putU16 v (-1) = .ok s' ∧ Made s' m (c ++ be16 v) := by
  have hw := h.usable.wf
  unfold WF at hw
  have hlt := h.usable.lt
  have hlen := h.len
  have hmax := h.max
  have e : (s.len : Int) + (-1) + 1 = s.len := by omega
  have eu : u32 (s.len : Int) = s.len := u32_nat _ (by omega)
  have hm' : s.len % 0x1000000 = s.len := Nat.mod_eq_of_lt (by omega)
  refine ⟨{ s with len := s.len + 2, buf := (s.buf.set s.len (DwStr.byte (v / 256))).set (s.len + 1) (DwStr.byte v) }, ?_, ⟨?_, ?_, ?_⟩, hmax, ?_⟩
  · unfold putU16
    simp only [h.usable.sane, Bool.not_true, Bool.false_eq_true, if_false,
      if_pos (show ((-1 : Int) < 0) by decide), e, eu, hm', Int.toNat_natCast]
    rw [if_neg (by omega), if_pos (by omega), if_neg (by omega), poke_ok _ (by simp; omega)]
    simp only [Res.ok_bind]
    rw [poke_ok _ (by simp; omega)]
    simp only [Res.ok.injEq, DwStr.mk.injEq, and_true]; omega
  · simp [WF, hw]
  · show s.len + 2 < s.max
    omega
  · exact h.usable.lim
  · rw [← h.contents]
    simp only [contents, be16, DwStr.byte]
    apply List.ext_getElem?
    intro j
    grind

theorem putBytes_made {m : Nat} (hm : m ≤ 1000) : ∀ (a : List UInt8) {s : DwStr} {c : List UInt8}, Made s m c →
    c.length + a.length < m → ∃ s', putBytes a s = .ok s' ∧ Made s' m (c ++ a) := by
  intro a
  induction a with
  | nil => intro s c h _; exact ⟨s, rfl, by simpa using h⟩
  | cons x a ih =>
    intro s c h hf
    rw [List.length_cons] at hf
    obtain ⟨s', e, h'⟩ := put8 h x.toNat hm (by omega)
    obtain ⟨s'', e', h''⟩ := ih h' (by rw [List.length_append, List.length_singleton]; omega)
    refine ⟨s'', by rw [putBytes, e]; exact e', ?_⟩
    simpa using h''

theorem addRecord_made {m : Nat} (hm : m ≤ 1000) {a : List UInt8} (ha : a.length = 4 ∨ a.length = 16) {s : DwStr}
    {c : List UInt8} (h : Made s m c) (hf : c.length + (addrEntry a).length < m) :
    ∃ s', addRecord s a = .ok s' ∧ Made s' m (c ++ addrEntry a) := by
  simp only [addrEntry, List.length_cons] at hf
  have key : ∀ k : Nat, number a.length = .ok k → UInt8.ofNat k = (if a.length = 4 then 1 else 28) →
      ∃ s', addRecord s a = .ok s' ∧ Made s' m (c ++ addrEntry a) := by
    intro k hk hk'
    obtain ⟨s', e, h'⟩ := put8 h k hm (by omega)
    obtain ⟨s'', e', h''⟩ := putBytes_made hm a h' (by rw [List.length_append, List.length_singleton]; omega)
    refine ⟨s'', by simp only [addRecord, hk, Res.ok_bind, e]; exact e', ?_⟩
    rw [hk'] at h''
    simpa [addrEntry] using h''
  rcases ha with ha | ha
  · exact key 1 (by rw [ha]; rfl) (by rw [ha]; rfl)
  · exact key 28 (by rw [ha]; rfl) (by rw [ha]; rfl)

theorem putOffsets_made {m : Nat} (hm : m ≤ 1000) : ∀ (os : List Nat) {s : DwStr} {c : List UInt8}, Made s m c →
    c.length + 2 * os.length < m → ∃ s', putOffsets os s = .ok s' ∧ Made s' m (c ++ os.flatMap be16) := by
  intro os
  induction os with
  | nil => intro s c h _; exact ⟨s, rfl, by simpa using h⟩
  | cons o os ih =>
    intro s c h hf
    rw [List.length_cons] at hf
    obtain ⟨s', e, h'⟩ := put16 h o hm (by omega)
    obtain ⟨s'', e', h''⟩ := ih h' (by simp only [List.length_append, be16, List.length_cons, List.length_nil]; omega)
    refine ⟨s'', by rw [putOffsets, e]; exact e', ?_⟩
    simpa using h''

/-! ### Items -/

theorem zapBlank_text {l : List UInt8} (hl : ∀ c ∈ l, ¬ (c = 32 ∨ c = 9)) {w : List UInt8} (hw : Blank w) :
    ∀ n, l.length < n → zapBlank n (l ++ w) = l := by
  induction l with
  | nil =>
    intro n hn
    obtain ⟨n, rfl⟩ : ∃ k, n = k + 1 := ⟨n - 1, by simp at hn; omega⟩
    cases w with
    | nil => rfl
    | cons x w => simp [zapBlank, hw x (by simp)]
  | cons x l ih =>
    intro n hn
    rw [List.length_cons] at hn
    obtain ⟨n, rfl⟩ : ∃ k, n = k + 1 := ⟨n - 1, by omega⟩
    rw [List.cons_append, zapBlank, if_neg (hl x (by simp)), ih (fun c hc => hl c (by simp [hc])) n (by omega)]

/-- An item of a line: the address `text`, with blanks around it. -/
structure Item (t : AddrText) where
  before : List UInt8
  text : List UInt8
  after : List UInt8
  addr : List UInt8
  blank : Blank before
  blank' : Blank after
  short : text.length < 512
  reads : t.read text = some addr

/-- The item as it is written. -/
def Item.raw {t : AddrText} (i : Item t) : List UInt8 := i.before ++ i.text ++ i.after

/-- An item that is not an address. -/
structure Bad (t : AddrText) (raw : List UInt8) : Prop where
  comma : 44 ∉ raw
  null : 0 ∉ raw
  wrong : ∀ w l, raw = w ++ l → Blank w → (∀ c, l.head? = some c → ¬ (c = 32 ∨ c = 9)) → t.read (zapBlank 512 l) = none

theorem blank_split (raw : List UInt8) : ∃ w l, raw = w ++ l ∧ Blank w ∧ ∀ c, l.head? = some c → ¬ (c = 32 ∨ c = 9) := by
  induction raw with
  | nil => exact ⟨[], [], rfl, by simp [Blank], by simp⟩
  | cons x r ih =>
    by_cases hx : x = 32 ∨ x = 9
    · obtain ⟨w, l, h1, h2, h3⟩ := ih
      refine ⟨x :: w, l, by rw [h1]; rfl, ?_, h3⟩
      intro c hc
      rcases List.mem_cons.1 hc with rfl | hc
      · exact hx
      · exact h2 c hc
    · exact ⟨[], x :: r, rfl, by simp [Blank], by simpa using hx⟩

theorem oneIp_read {t : AddrText} {c a : List UInt8} (h : t.read c = some a) : oneIp t (some c) = .ok a := by
  unfold AddrText.read at h
  unfold oneIp
  simp only
  cases h4 : t.v4 c with
  | some b => rw [h4] at h; simpa using h
  | none => rw [h4] at h; simp only at h; rw [h]

theorem oneIp_none {t : AddrText} {c : List UInt8} (h : t.read c = none) : oneIp t (some c) = .ok [] := by
  unfold AddrText.read at h
  unfold oneIp
  simp only
  cases h4 : t.v4 c with
  | some b => rw [h4] at h; simp at h
  | none => rw [h4] at h; simp only at h; rw [h]

theorem read_size {t : AddrText} (ht : t.Ok) {c a : List UInt8} (h : t.read c = some a) : a.length = 4 ∨ a.length = 16 := by
  unfold AddrText.read at h
  cases h4 : t.v4 c with
  | some b => rw [h4] at h; injection h with h; subst h; exact .inl (ht.v4 h4)
  | none => rw [h4] at h; exact .inr (ht.v6 h)

theorem line_snoc {l : List (List UInt8)} (x : List UInt8) (h : 44 ∉ x) :
    LastItem (lineText (l ++ [x])) x (lineText l) := by
  by_cases hl : l = []
  · subst hl
    have : lineText ([] ++ [x]) = x := by simp [lineText, List.intercalate]
    rw [this]
    exact .only h
  · have : lineText (l ++ [x]) = lineText l ++ 44 :: x := by
      unfold lineText
      exact intercalate_snoc hl
    rw [this]
    exact .after h

theorem pop_item {t : AddrText} (ht : t.Ok) {s : DwStr} (hs : Usable s) (hlen : s.contents.length + 2 < 134217728)
    (junk : List UInt8) {l : List (List UInt8)} (i : Item t) (hc : s.contents = lineText (l ++ [i.raw])) :
    ∃ c s', popLastItem s junk = .ok (some c, s') ∧ zapBlank 512 c = i.text ∧ Usable s' ∧ s'.contents = lineText l ∧
      s'.contents.length ≤ s.contents.length := by
  have hch := ht.chars i.reads
  have hne : ∀ c ∈ i.text, c ≠ 0 ∧ c ≠ 47 ∧ c ≠ 44 ∧ c ≠ 32 ∧ c ≠ 9 := fun c hm => addrChar_ne (hch.2 c hm)
  have hcomma : 44 ∉ i.raw := by
    intro hm
    unfold Item.raw at hm
    rcases List.mem_append.1 hm with hm | hm
    · rcases List.mem_append.1 hm with hm | hm
      · have := i.blank _ hm; revert this; decide
      · exact (hne _ hm).2.2.1 rfl
    · have := i.blank' _ hm; revert this; decide
  have hL := line_snoc (l := l) i.raw hcomma
  rw [← hc] at hL
  have hL' : LastItem s.contents (i.before ++ (i.text ++ i.after)) (lineText l) := by
    have e : i.raw = i.before ++ (i.text ++ i.after) := by simp [Item.raw]
    rw [← e]; exact hL
  obtain ⟨s', h1, h2, h3⟩ := popLastItem_exact hs hlen junk hL' i.blank
    (by
      intro c hcc
      cases htx : i.text with
      | nil => exact absurd htx hch.1
      | cons x xs =>
        rw [htx] at hcc
        simp only [List.cons_append, List.head?_cons, Option.some.injEq] at hcc
        subst hcc
        have := hne x (by rw [htx]; simp)
        exact fun h => h.elim this.2.2.2.1 this.2.2.2.2)
    (by
      intro hm
      rcases List.mem_append.1 hm with hm | hm
      · exact (hne _ hm).1 rfl
      · have := i.blank' _ hm; revert this; decide)
  refine ⟨_, s', h1, zapBlank_text (fun c hm h => h.elim (hne c hm).2.2.2.1 (hne c hm).2.2.2.2) i.blank' 512 i.short, h2, h3, ?_⟩
  rw [h3]; exact hL.le

/-- The items before those that are taken: none, or the last of them is not an address. -/
def Ends (t : AddrText) (olds : List (List UInt8)) : Prop := olds = [] ∨ ∃ front bad, olds = front ++ [bad] ∧ Bad t bad

theorem pop_end {t : AddrText} (ht : t.Ok) {s : DwStr} (hs : Usable s) (hlen : s.contents.length + 2 < 134217728)
    (junk : List UInt8) {olds : List (List UInt8)} (he : Ends t olds) (hc : s.contents = lineText olds) :
    ∃ c s', popLastItem s junk = .ok (some c, s') ∧ t.read (zapBlank 512 c) = none := by
  rcases he with rfl | ⟨front, bad, rfl, hb⟩
  · have hc' : s.contents = [] := by simpa [lineText, List.intercalate] using hc
    obtain ⟨s', hp, -, -⟩ := popLastItem_exact (w := []) (l := []) (rest := []) hs hlen junk
      (by rw [hc']; exact .only (by simp)) (by simp [Blank]) (by simp) (by simp)
    refine ⟨[], s', hp, ?_⟩
    show t.read [] = none
    cases h : t.read [] with
    | none => rfl
    | some a => exact absurd rfl (ht.chars h).1
  · obtain ⟨w, l, h1, h2, h3⟩ := blank_split bad
    have hL := line_snoc (l := front) bad hb.comma
    rw [← hc, h1] at hL
    obtain ⟨s', hp, -, -⟩ := popLastItem_exact hs hlen junk hL h2 h3 (fun hm => hb.null (by rw [h1]; simp [hm]))
    exact ⟨l, s', hp, hb.wrong w l h1 h2 h3⟩

theorem addLoop_made {t : AddrText} (ht : t.Ok) (junk : List UInt8) {m : Nat} (hm : m ≤ 1000) {olds : List (List UInt8)} :
    ∀ (n : Nat) (items : List (Item t)) (s out : DwStr) (c : List UInt8) (os : List Nat), Usable s →
      s.contents.length + 2 < 134217728 → s.contents = lineText (olds ++ items.reverse.map Item.raw) →
      items.length ≤ n → (items.length = n ∨ Ends t olds) → Made out m c →
      c.length + ((items.map fun i => addrEntry i.addr).flatten).length < m →
      ∃ out', addLoop t junk n s out os = .ok (out', os ++ place c.length (items.map fun i => addrEntry i.addr)) ∧
        Made out' m (c ++ (items.map fun i => addrEntry i.addr).flatten) := by
  intro n
  induction n with
  | zero =>
    intro items s out c os _ _ _ hn _ ho _
    have : items = [] := List.length_eq_zero_iff.1 (by omega)
    subst this
    exact ⟨out, by simp [addLoop, place], by simpa using ho⟩
  | succ n ih =>
    intro items s out c os hs hlen hc hn hend ho hf
    cases items with
    | nil =>
      have he : Ends t olds := by
        rcases hend with h | h
        · simp at h
        · exact h
      obtain ⟨x, s', hp, hr⟩ := pop_end ht hs hlen junk he (by simpa using hc)
      refine ⟨out, ?_, by simpa using ho⟩
      simp only [addLoop, hp, Res.ok_bind, Option.map_some, oneIp_none hr]
      simp [place]
    | cons i is =>
      simp only [List.map_cons, List.flatten_cons, List.length_append] at hf
      obtain ⟨x, s', hp, hz, hu, hc', hle⟩ := pop_item ht hs hlen junk (l := olds ++ is.reverse.map Item.raw) i
        (by rw [hc]; simp)
      have hsz := read_size ht i.reads
      obtain ⟨out1, e1, h1⟩ := addRecord_made hm hsz ho (by omega)
      obtain ⟨out2, e2, h2⟩ := ih is s' out1 (c ++ addrEntry i.addr) (os ++ [c.length]) hu (by omega) hc' (by simpa using hn)
        (by rcases hend with h | h
            · exact .inl (by simpa using h)
            · exact .inr h)
        h1 (by rw [List.length_append]; omega)
      refine ⟨out2, ?_, ?_⟩
      · have hol : out.len % 65536 = c.length := by rw [ho.len]; omega
        have hne : i.addr ≠ [] := by
          intro h; rw [h] at hsz; simp at hsz
        simp only [addLoop, hp, Res.ok_bind, Option.map_some, hz, oneIp_read i.reads, if_neg hne, e1, hol]
        rw [e2]
        simp [place]
      · simpa using h2

end Conf
end Dw
