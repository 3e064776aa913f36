import Verif.Deadwood.AclProps
/-!
# C35: reading access lists
-/

namespace Dw
namespace Acl
open DwStr Spec

/-- White space before an item. -/
def Blank (l : List UInt8) : Prop := ∀ c ∈ l, c = 32 ∨ c = 9

theorem addrChar_ne {c : UInt8} (h : AddrChar c) : c ≠ 0 ∧ c ≠ 47 ∧ c ≠ 44 ∧ c ≠ 32 ∧ c ≠ 9 := by
  refine ⟨?_, ?_, ?_, ?_, ?_⟩ <;> rintro rfl <;> revert h <;> unfold AddrChar <;> decide

theorem dropWhile_blank {w l : List UInt8} (hw : Blank w) (hl : ∀ c, l.head? = some c → ¬ (c = 32 ∨ c = 9)) :
    (w ++ l).dropWhile (fun x => decide (x = 32 ∨ x = 9)) = l := by
  induction w with
  | nil =>
    cases l with
    | nil => rfl
    | cons c r =>
      rw [List.nil_append, List.dropWhile_cons_of_neg]
      simpa using hl c rfl
  | cons c r ih =>
    rw [List.cons_append, List.dropWhile_cons_of_pos (by simpa using hw c (by simp))]
    exact ih (fun x hx => hw x (by simp [hx]))

theorem takeWhile_stop {l r : List UInt8} {z : UInt8} (h : z ∉ l) : (l ++ z :: r).takeWhile (· != z) = l := by
  induction l with
  | nil => simp
  | cons x xs ih =>
    have : x ≠ z := fun e => h (by simp [e])
    rw [List.cons_append, List.takeWhile_cons_of_pos (by simpa using this), ih (fun h' => h (by simp [h']))]

theorem dropWhile_stop {l r : List UInt8} {z : UInt8} (h : z ∉ l) : (l ++ z :: r).dropWhile (· != z) = z :: r := by
  induction l with
  | nil => simp
  | cons x xs ih =>
    have : x ≠ z := fun e => h (by simp [e])
    rw [List.cons_append, List.dropWhile_cons_of_pos (by simpa using this), ih (fun h' => h (by simp [h']))]

theorem takeWhile_all {l : List UInt8} {z : UInt8} (h : z ∉ l) : l.takeWhile (· != z) = l := by
  induction l with
  | nil => rfl
  | cons x xs ih =>
    have : x ≠ z := fun e => h (by simp [e])
    rw [List.takeWhile_cons_of_pos (by simpa using this), ih (fun h' => h (by simp [h']))]

/-- The last item of a list text and what is left of it. -/
inductive LastItem : List UInt8 → List UInt8 → List UInt8 → Prop
  | only {l} : 44 ∉ l → LastItem l l []
  | after {pre l} : 44 ∉ l → LastItem (pre ++ 44 :: l) l pre

theorem LastItem.le {t l r : List UInt8} (h : LastItem t l r) : r.length ≤ t.length := by
  cases h with
  | only => simp
  | after => simp

theorem popLastItem_exact {s : DwStr} (h : Usable s) (hlen : s.contents.length + 2 < 134217728) (junk : List UInt8)
    {w l rest : List UInt8} (hL : LastItem s.contents (w ++ l) rest) (hw : Blank w)
    (hl : ∀ c, l.head? = some c → ¬ (c = 32 ∨ c = 9)) (h0 : 0 ∉ l) :
    ∃ s', popLastItem s junk = .ok (some l, s') ∧ Usable s' ∧ s'.contents = rest := by
  have key : ∀ {out s' : DwStr}, qspop s junk = .ok (out, s') → Usable out → Usable s' → out.contents = w ++ l →
      out.contents.length ≤ s.contents.length → s'.contents = rest →
      ∃ s', popLastItem s junk = .ok (some l, s') ∧ Usable s' ∧ s'.contents = rest := by
    intro out s' hq hu hu' ho hle hr
    obtain ⟨z, hz, hzu, hzc⟩ := zapLws_exact hu junk (by omega)
    refine ⟨s', ?_, hu', hr⟩
    rw [ho, dropWhile_blank hw hl] at hzc
    have : cstr z.contents = l := by rw [hzc]; exact takeWhile_all h0
    simp [popLastItem, hq, hz, hzu.sane, this]
  generalize hg : w ++ l = g at hL key
  generalize hcs : s.contents = cs at hL
  cases hL with
  | only h44 =>
    obtain ⟨out, s', hq, hu, hu', -, ho, hs'⟩ := (qspop_exact h junk).1 (by rw [hcs]; exact h44)
    exact key hq hu hu' (by rw [ho, hcs]) (by rw [ho]; exact Nat.le_refl _) hs'
  | after h44 =>
    obtain ⟨out, s', hq, hu, hu', -, ho, hs'⟩ := (qspop_exact h junk).2 _ _ hcs h44
    exact key hq hu hu' ho (by rw [ho, hcs]; simp; omega) hs'

/-- An unset entry of the list. -/
structure Room (m : IpMask) : Prop where
  ip : 16 ≤ m.ip.length
  mask : 16 ≤ m.mask.length

theorem popIpCore_some {t : AddrText} (ht : t.Ok) {m : IpMask} (hm : Room m) {c a : List UInt8} (h : t.read c = some a) :
    popIpCore t m c = .ok { m with len := a.length, ip := a ++ m.ip.drop a.length } := by
  unfold AddrText.read at h
  unfold popIpCore
  cases h4 : t.v4 c with
  | some x =>
    rw [h4] at h
    simp only at h
    injection h with h; subst h
    have := ht.v4 h4
    have := hm.ip
    simp only [putAddr]
    rw [if_pos (by omega)]
    simp only [Res.ok_bind, ht.v4 h4]
  | none =>
    rw [h4] at h
    simp only at h
    have := ht.v6 h
    have := hm.ip
    simp only [h, putAddr]
    rw [if_pos (by omega)]
    simp only [Res.ok_bind, ht.v6 h]

theorem popIpCore_none {t : AddrText} {m : IpMask} {c : List UInt8} (h : t.read c = none) :
    popIpCore t m c = .ok { m with len := 0 } := by
  unfold AddrText.read at h
  unfold popIpCore
  cases h4 : t.v4 c with
  | some x => rw [h4] at h; simp at h
  | none =>
    rw [h4] at h
    simp only at h
    simp only [h]

theorem read_len {t : AddrText} (ht : t.Ok) {c a : List UInt8} (h : t.read c = some a) : a.length = 4 ∨ a.length = 16 := by
  unfold AddrText.read at h
  cases h4 : t.v4 c with
  | some x =>
    rw [h4] at h
    injection h with h; subst h
    exact Or.inl (ht.v4 h4)
  | none => rw [h4] at h; exact Or.inr (ht.v6 h)

theorem takeWhile_digits {ds : List UInt8} (h : ∀ d ∈ ds, 48 ≤ d ∧ d ≤ 57) : ds.takeWhile isDigit = ds := by
  induction ds with
  | nil => rfl
  | cons x xs ih =>
    have := h x (by simp)
    rw [List.takeWhile_cons_of_pos (by simp [isDigit, this]), ih (fun d hd => h d (by simp [hd]))]

theorem sign_none {x : UInt8} {r : List UInt8} (h1 : x ≠ 45) (h2 : x ≠ 43) : sign (x :: r) = (false, x :: r) := by
  unfold sign
  split
  · rename_i h; injection h with h; exact absurd h h1
  · rename_i h; injection h with h; exact absurd h h2
  · rfl

theorem catoi_dec {ds : List UInt8} (h : IsDec ds) (hb : decVal ds ≤ 2147483647) : catoi ds = .ok (decVal ds) := by
  obtain ⟨hne, hd⟩ := h
  cases ds with
  | nil => exact absurd rfl hne
  | cons x xs =>
    have hx := hd x (by simp)
    have hsp : isSpace x = false := by
      have h1 : x ≠ 32 := by rintro rfl; revert hx; decide
      have h2 : ¬ x ≤ 13 := by
        intro h2; have := UInt8.le_trans hx.1 h2; revert this; decide
      simp [isSpace, h1, h2]
    have h45 : x ≠ 45 := by rintro rfl; revert hx; decide
    have h43 : x ≠ 43 := by rintro rfl; revert hx; decide
    unfold catoi
    rw [List.dropWhile_cons_of_neg (by simp [hsp])]
    simp only []
    rw [sign_none h45 h43]
    simp only [Bool.false_eq_true, if_false]
    rw [takeWhile_digits hd, if_pos (by omega)]

/-- C35, one item.  Reading a documented entry from the end of the list text gives a
list entry for exactly the written network, whatever the list entry held before. -/
theorem popIpMask_exact {t : AddrText} (ht : t.Ok) {s : DwStr} (h : Usable s)
    (hlen : s.contents.length + 2 < 134217728) (junk : List UInt8) {w l rest : List UInt8} {net : Network}
    (hL : LastItem s.contents (w ++ l) rest) (hw : Blank w) (he : AclItem t l net) {m : IpMask} (hm : Room m) :
    ∃ m' s', popIpMask t s m junk = .ok (m', s') ∧ Usable s' ∧ s'.contents = rest ∧
      EntryIs m' net.addr net.pre ∧ net.pre ≤ 8 * net.addr.length ∧ net.addr ≠ [] := by
  cases he with
  | @host l a hr =>
    obtain ⟨hne, hch⟩ := ht.chars hr
    have hno : ∀ z : UInt8, (z = 0 ∨ z = 47 ∨ z = 44 ∨ z = 32 ∨ z = 9) → z ∉ l := by
      intro z hz hm
      have := addrChar_ne (hch z hm)
      rcases hz with e | e | e | e | e <;> simp [e] at this
    obtain ⟨s', hp, hu, hc⟩ := popLastItem_exact h hlen junk hL hw (by
      intro c hc hcc
      have := hno c (by rcases hcc with e | e <;> simp [e])
      exact this (List.mem_of_mem_head? hc)) (hno 0 (by simp))
    have hal := read_len ht hr
    have hmm := hm.mask
    obtain ⟨k, hk, hkl, hkb⟩ := makeNetmask_exact (a := m.mask) (len := a.length) (n := 8 * a.length) (by omega) (by omega)
      (by omega) (by omega)
    refine ⟨⟨a.length, a ++ m.ip.drop a.length, k ++ m.mask.drop a.length⟩, s', ?_, hu, hc, ⟨rfl, ⟨_, rfl⟩, ⟨k, _, rfl, hkl, hkb⟩⟩, by simp, by rintro rfl; simp at hal⟩
    simp only [popIpMask, hp, Res.ok_bind]
    rw [if_neg (hno 47 (by simp)), popIpCore_some ht hm hr, Res.ok_bind]
    simp only []
    rw [show ((a.length : Int) * 8) = ((8 * a.length : Nat) : Int) by omega, hk, Res.ok_bind]
  | @net l a ds hr hd hb =>
    obtain ⟨hne, hch⟩ := ht.chars hr
    have hno : ∀ z : UInt8, (z = 0 ∨ z = 47 ∨ z = 44 ∨ z = 32 ∨ z = 9) → z ∉ l := by
      intro z hz hm
      have := addrChar_ne (hch z hm)
      rcases hz with e | e | e | e | e <;> simp [e] at this
    have h0 : (0 : UInt8) ∉ l ++ 47 :: ds := by
      intro hm0
      rcases List.mem_append.1 hm0 with hh | hh
      · exact hno 0 (by simp) hh
      · rcases List.mem_cons.1 hh with hh | hh
        · exact absurd hh (by decide)
        · have := hd.2 0 hh; revert this; decide
    obtain ⟨s', hp, hu, hc⟩ := popLastItem_exact h hlen junk hL hw (by
      intro c hc hcc
      rw [head?_append_ne hne] at hc
      have := hno c (by rcases hcc with e | e <;> simp [e])
      exact this (List.mem_of_mem_head? hc)) h0
    have hal := read_len ht hr
    have hmm := hm.mask
    obtain ⟨k, hk, hkl, hkb⟩ := makeNetmask_exact (a := m.mask) (len := a.length) (n := decVal ds) (by omega) (by omega)
      (by omega) hb
    refine ⟨⟨a.length, a ++ m.ip.drop a.length, k ++ m.mask.drop a.length⟩, s', ?_, hu, hc, ⟨rfl, ⟨_, rfl⟩, ⟨k, _, rfl, hkl, hkb⟩⟩, hb, by rintro rfl; simp at hal⟩
    simp only [popIpMask, hp, Res.ok_bind]
    rw [if_pos (by simp), takeWhile_stop (hno 47 (by simp)), dropWhile_stop (hno 47 (by simp)), popIpCore_some ht hm hr,
      Res.ok_bind]
    simp only [List.drop_one, List.tail_cons]
    rw [if_neg hd.1, catoi_dec hd (by omega), Res.ok_bind, if_neg (by omega), if_neg (by omega), hk, Res.ok_bind]

/-- C35, an item whose address part is not an address leaves the entry unset.  (This
also ends the reading: items to the left are ignored.) -/
theorem popIpMask_bad_address {t : AddrText} {s : DwStr} (h : Usable s)
    (hlen : s.contents.length + 2 < 134217728) (junk : List UInt8) {w l rest : List UInt8}
    (hL : LastItem s.contents (w ++ l) rest) (hw : Blank w) (hl : ∀ c, l.head? = some c → ¬ (c = 32 ∨ c = 9)) (h0 : 0 ∉ l)
    (hbad : t.read (l.takeWhile (· != 47)) = none) {m : IpMask} {m' : IpMask} {s' : DwStr}
    (hres : popIpMask t s m junk = .ok (m', s')) : m'.len = 0 := by
  obtain ⟨s'', hp, -, -⟩ := popLastItem_exact h hlen junk hL hw hl h0
  simp only [popIpMask, hp, Res.ok_bind] at hres
  split at hres
  · rw [popIpCore_none hbad, Res.ok_bind] at hres
    simp only at hres
    split at hres
    · cases hres; rfl
    · cases hn : catoi ((l.dropWhile (· != 47)).drop 1) with
      | ok n =>
        rw [hn, Res.ok_bind, if_pos (by omega)] at hres
        cases hres; rfl
      | err => rw [hn] at hres; cases hres
      | ub => rw [hn] at hres; cases hres
  · rename_i hs
    rw [takeWhile_all hs] at hbad
    rw [popIpCore_none hbad, Res.ok_bind] at hres
    have : makeNetmask ((0 : Nat) * 8) m.mask 0 = .ok m.mask := rfl
    simp only [this, Res.ok_bind] at hres
    cases hres; rfl

/-- The text of a list: items with white space before them, joined with commas. -/
def listText (items : List (List UInt8 × List UInt8)) : List UInt8 :=
  [(44 : UInt8)].intercalate (items.map fun i => i.1 ++ i.2)

theorem entry_no_comma {t : AddrText} (ht : t.Ok) {w l : List UInt8} {net : Network} (hw : Blank w) (he : AclItem t l net) :
    (44 : UInt8) ∉ w ++ l := by
  intro hm
  rcases List.mem_append.1 hm with hm | hm
  · have := hw 44 hm; revert this; decide
  · cases he with
    | host hr => exact (addrChar_ne ((ht.chars hr).2 _ hm)).2.2.1 rfl
    | net hr hd _ =>
      rcases List.mem_append.1 hm with hm | hm
      · exact (addrChar_ne ((ht.chars hr).2 _ hm)).2.2.1 rfl
      · rcases List.mem_cons.1 hm with hm | hm
        · exact absurd hm (by decide)
        · have := hd.2 _ hm; revert this; decide

theorem setLoop_exact {t : AddrText} (ht : t.Ok) (junk : List UInt8) :
    ∀ (n : Nat) (items : List ((List UInt8 × List UInt8) × Network)) (ms : List IpMask) (s : DwStr), Usable s →
      s.contents.length + 2 < 134217728 → s.contents = listText (items.reverse.map (·.1)) →
      (∀ i ∈ items, Blank i.1.1 ∧ AclItem t i.1.2 i.2) → items.length ≤ n → n < ms.length → (∀ m ∈ ms, Room m) →
      ∃ acl, setLoop t junk n ms s = .ok acl ∧
        List.Forall₂ (fun m (w : Network) => EntryIs m w.addr w.pre ∧ w.pre ≤ 8 * w.addr.length ∧ w.addr ≠ []) acl
          (items.map (·.2)) := by
  intro n
  induction n with
  | zero =>
    intro items ms s _ _ _ _ hn _ _
    have : items = [] := List.length_eq_zero_iff.1 (by omega)
    subst this
    exact ⟨[], rfl, .nil⟩
  | succ n ih =>
    intro items ms s hs hlen hc hi hn hms hroom
    match ms, hms with
    | m :: ms, hms =>
      cases items with
      | nil =>
        have hc' : s.contents = [] := by simpa [listText, List.intercalate] using hc
        obtain ⟨s', hp, -, -⟩ := popLastItem_exact (w := []) (l := []) (rest := []) hs hlen junk
          (by rw [hc']; exact .only (by simp)) (by simp [Blank]) (by simp) (by simp)
        refine ⟨[], ?_, .nil⟩
        have hr : t.read [] = none := by
          cases h : t.read [] with
          | none => rfl
          | some a => exact absurd rfl (ht.chars h).1
        have hk : makeNetmask ((0 : Nat) * 8) m.mask 0 = .ok m.mask := rfl
        simp only [setLoop, popIpMask, hp, Res.ok_bind]
        rw [if_neg (by simp), popIpCore_none hr, Res.ok_bind]
        simp only [hk, Res.ok_bind]
        simp
      | cons i is =>
        obtain ⟨hb, he⟩ := hi i (by simp)
        have hnc := entry_no_comma ht hb he
        have hL : LastItem s.contents (i.1.1 ++ i.1.2) (listText (is.reverse.map (·.1))) := by
          rw [hc]
          by_cases hz : is = []
          · subst hz
            simp only [listText, List.intercalate, List.reverse_cons, List.reverse_nil, List.nil_append, List.map_cons,
              List.map_nil, List.intersperse_singleton, List.flatten_cons, List.flatten_nil, List.append_nil,
              List.intersperse_nil]
            exact .only hnc
          · have : listText ((i :: is).reverse.map (·.1)) = listText (is.reverse.map (·.1)) ++ 44 :: (i.1.1 ++ i.1.2) := by
              unfold listText
              rw [List.reverse_cons, List.map_append, List.map_append]
              exact intercalate_snoc (by simpa using hz)
            rw [this]
            exact .after hnc
        obtain ⟨m', s', hp, hu, hc', hE⟩ := popIpMask_exact ht hs hlen junk hL hb he (hroom m (by simp))
        have hlen' : s'.contents.length ≤ s.contents.length := by
          rw [hc']; exact hL.le
        obtain ⟨acl, ha1, ha2⟩ := ih is ms s' hu (by omega) hc' (fun j hj => hi j (by simp [hj])) (by simpa using hn)
          (by simpa using hms) (fun m hm => hroom m (by simp [hm]))
        refine ⟨m' :: acl, ?_, .cons hE ha2⟩
        have hm0 : m'.len ≠ 0 := by
          rw [hE.1.len]; exact fun h => hE.2.2 (List.length_eq_zero_iff.1 h)
        simp only [setLoop, hp, Res.ok_bind, if_neg hm0, ha1]

theorem blank_room {m : IpMask} (h : m ∈ List.replicate 129 blank) : Room m := by
  rw [(List.mem_replicate.1 h).2]
  exact ⟨by decide, by decide⟩

/-- **C33 and C35 together (partial).** For every list text made of up to 127 documented
entries, a client is admitted exactly when its address belongs to one of the written
networks.  Missing for the full claim: items that are not of the documented form; the
two theorems below show that some of these admit everyone. -/
theorem acl_text_exact_partial {t : AddrText} (ht : t.Ok) {s : DwStr} (hs : Usable s)
    (hlen : s.contents.length + 2 < 134217728) (junk : List UInt8)
    {items : List ((List UInt8 × List UInt8) × Network)} (hc : s.contents = listText (items.map (·.1)))
    (hi : ∀ i ∈ items, Blank i.1.1 ∧ AclItem t i.1.2 i.2) (hn : items.length ≤ 127) (ip r : List UInt8) :
    ∃ acl b, setIpmaskList t s junk = .ok acl ∧ checkIpAcl acl ip.length (ip ++ r) = .ok b ∧
      (b = true ↔ ∃ i ∈ items, i.2.Has ip) := by
  obtain ⟨acl, h1, h2⟩ := setLoop_exact ht junk 127 items.reverse (List.replicate 129 blank) s hs hlen
    (by simpa using hc) (fun i h => hi i (by simpa using h)) (by simpa using hn) (by simp) (fun m h => blank_room h)
  obtain ⟨b, h3, h4⟩ := checkIpAcl_exact h2 ip r
  refine ⟨acl, b, h1, h3, ?_⟩
  rw [h4]
  constructor
  · rintro ⟨w, hw, hh⟩
    obtain ⟨i, hi, rfl⟩ := List.mem_map.1 hw
    exact ⟨i, by simpa using hi, hh⟩
  · rintro ⟨i, hi, hh⟩
    exact ⟨i.2, List.mem_map.2 ⟨i, by simpa using hi, rfl⟩, hh⟩

/-! ## What malformed entries do -/

theorem setLoop_one {t : AddrText} (ht : t.Ok) {s s' : DwStr} {m : IpMask} (hm : m.len ≠ 0) (hs : Usable s')
    (hc : s'.contents = []) {junk : List UInt8} (h : popIpMask t s blank junk = .ok (m, s')) :
    setIpmaskList t s junk = .ok [m] := by
  have := setLoop_exact ht junk 126 [] (List.replicate 128 blank) s' hs (by rw [hc]; simp)
    (by rw [hc]; simp [listText, List.intercalate]) (by simp) (by simp) (by simp)
    (fun m h => blank_room (by
      rw [(List.mem_replicate.1 h).2]; simp))
  obtain ⟨acl, h1, h2⟩ := this
  cases h2
  unfold setIpmaskList
  rw [show List.replicate 129 blank = blank :: List.replicate 128 blank from rfl]
  simp only [setLoop, h, Res.ok_bind, if_neg hm, h1]

/-- An entry that keeps the blank mask admits every address of its family. -/
theorem blank_mask_admits {m : IpMask} {a : List UInt8} (hne : a ≠ []) (h1 : m.len = a.length) (h2 : ∃ r, m.ip = a ++ r)
    (h3 : ∃ r, m.mask = List.replicate a.length 0 ++ r) (ip r : List UInt8) (hip : ip.length = a.length) :
    checkIpAcl [m] ip.length (ip ++ r) = .ok true := by
  have hE : EntryIs m a 0 := by
    obtain ⟨r, hr⟩ := h3
    exact ⟨h1, h2, ⟨_, r, hr, by simp, by rw [bits_zero]; simp⟩⟩
  obtain ⟨b, hb1, hb2⟩ := checkIpAcl_exact (acl := [m]) (nets := [⟨a, 0⟩]) (.cons ⟨hE, by simp, hne⟩ .nil) ip r
  rw [hb1]
  congr 1
  rw [hb2]
  exact ⟨⟨a, 0⟩, by simp, hip, by simp⟩

/-- **Finding.** The entry `address/` (slash, no number) admits every address of the
same family. -/
theorem slash_without_bits_admits_all {t : AddrText} (ht : t.Ok) {s : DwStr} (hs : Usable s)
    (hlen : s.contents.length + 2 < 134217728) (junk : List UInt8) {l a : List UInt8} (hr : t.read l = some a)
    (hc : s.contents = l ++ [47]) (ip r : List UInt8) (hip : ip.length = a.length) :
    ∃ acl, setIpmaskList t s junk = .ok acl ∧ checkIpAcl acl ip.length (ip ++ r) = .ok true := by
  obtain ⟨hne, hch⟩ := ht.chars hr
  have hno : ∀ z : UInt8, (z = 0 ∨ z = 47 ∨ z = 44 ∨ z = 32 ∨ z = 9) → z ∉ l := by
    intro z hz hm
    have := addrChar_ne (hch z hm)
    rcases hz with e | e | e | e | e <;> simp [e] at this
  obtain ⟨s', hp, hu, hcc⟩ := popLastItem_exact (w := []) (l := l ++ [47]) (rest := []) hs hlen junk
    (by rw [hc]; exact .only (by simp [hno 44])) (by simp [Blank]) (by
      intro c hc hcc
      rw [head?_append_ne hne] at hc
      have := hno c (by rcases hcc with e | e <;> simp [e])
      exact this (List.mem_of_mem_head? hc)) (by simp [hno 0])
  have hal := read_len ht hr
  have hpm : popIpMask t s blank junk = .ok (⟨a.length, a ++ blank.ip.drop a.length, blank.mask⟩, s') := by
    simp only [popIpMask, hp, Res.ok_bind]
    rw [if_pos (by simp), takeWhile_stop (hno 47 (by simp)), dropWhile_stop (hno 47 (by simp)),
      popIpCore_some ht (blank_room (by simp)) hr, Res.ok_bind]
    simp
  refine ⟨_, setLoop_one ht (by simp only; omega) hu hcc hpm, ?_⟩
  refine blank_mask_admits (a := a) (by rintro rfl; simp at hal) rfl ⟨_, rfl⟩ ⟨List.replicate (17 - a.length) 0, ?_⟩
    ip r hip
  rw [List.replicate_append_replicate, show a.length + (17 - a.length) = 17 by omega]
  rfl

/-- **Finding.** The entry `address/word`, where the word does not begin with a number,
a sign or white space, admits every address of the same family. -/
theorem bad_bits_admit_all {t : AddrText} (ht : t.Ok) {s : DwStr} (hs : Usable s)
    (hlen : s.contents.length + 2 < 134217728) (junk : List UInt8) {l a q : List UInt8} {x : UInt8}
    (hr : t.read l = some a) (hc : s.contents = l ++ 47 :: x :: q) (hx : isSpace x = false ∧ isDigit x = false ∧ x ≠ 43 ∧ x ≠ 45)
    (h0 : 0 ∉ x :: q) (h44 : 44 ∉ x :: q) (ip r : List UInt8) (hip : ip.length = a.length) :
    ∃ acl, setIpmaskList t s junk = .ok acl ∧ checkIpAcl acl ip.length (ip ++ r) = .ok true := by
  obtain ⟨hne, hch⟩ := ht.chars hr
  have hno : ∀ z : UInt8, (z = 0 ∨ z = 47 ∨ z = 44 ∨ z = 32 ∨ z = 9) → z ∉ l := by
    intro z hz hm
    have := addrChar_ne (hch z hm)
    rcases hz with e | e | e | e | e <;> simp [e] at this
  obtain ⟨s', hp, hu, hcc⟩ := popLastItem_exact (w := []) (l := l ++ 47 :: x :: q) (rest := []) hs hlen junk
    (by
      rw [hc]
      refine .only (fun h => ?_)
      rcases List.mem_append.1 h with h | h
      · exact hno 44 (by simp) h
      · rcases List.mem_cons.1 h with h | h
        · exact absurd h (by decide)
        · exact h44 h) (by simp [Blank]) (by
      intro c hc hcc
      rw [head?_append_ne hne] at hc
      have := hno c (by rcases hcc with e | e <;> simp [e])
      exact this (List.mem_of_mem_head? hc)) (fun h => by
      rcases List.mem_append.1 h with h | h
      · exact hno 0 (by simp) h
      · rcases List.mem_cons.1 h with h | h
        · exact absurd h (by decide)
        · exact h0 h)
  have hal := read_len ht hr
  have hat : catoi (x :: q) = .ok 0 := by
    unfold catoi
    rw [List.dropWhile_cons_of_neg (by simp [hx.1])]
    simp only []
    rw [sign_none hx.2.2.2 hx.2.2.1]
    simp only []
    rw [List.takeWhile_cons_of_neg (by simp [hx.2.1])]
    rfl
  obtain ⟨k, hk, hkl, hkb⟩ := makeNetmask_exact (a := blank.mask) (len := a.length) (n := 0) (by omega) (by omega)
    (by simp [blank]; omega) (by omega)
  have hk0 : k = List.replicate a.length 0 := bits_inj (by rw [hkb, bits_zero]; simp)
  have hpm : popIpMask t s blank junk =
      .ok (⟨a.length, a ++ blank.ip.drop a.length, k ++ blank.mask.drop a.length⟩, s') := by
    simp only [popIpMask, hp, Res.ok_bind]
    rw [if_pos (by simp), takeWhile_stop (hno 47 (by simp)), dropWhile_stop (hno 47 (by simp)),
      popIpCore_some ht (blank_room (by simp)) hr, Res.ok_bind]
    simp only [List.drop_one, List.tail_cons]
    rw [if_neg (by simp), hat, Res.ok_bind, if_neg (by omega), if_neg (by omega)]
    have hk' : makeNetmask 0 blank.mask a.length = .ok (k ++ blank.mask.drop a.length) := hk
    rw [hk', Res.ok_bind]
  refine ⟨_, setLoop_one ht (by simp only; omega) hu hcc hpm, ?_⟩
  exact blank_mask_admits (a := a) (by rintro rfl; simp at hal) rfl ⟨_, rfl⟩ ⟨_, by rw [hk0]⟩ ip r hip

/-! ## Examples -/

/-- A reader that knows two addresses. -/
def exText : AddrText where
  v4 s := if s = [49, 46, 48, 46, 48, 46, 48] then some [1, 0, 0, 0] else none
  v6 s := if s = [58, 58, 49] then some [0, 0, 0, 0, 0, 0, 0, 0, 0, 0, 0, 0, 0, 0, 0, 1] else none

theorem exText_ok : exText.Ok where
  v4 := by intro s a h; simp only [exText] at h; split at h <;> cases h; rfl
  v6 := by intro s a h; simp only [exText] at h; split at h <;> cases h; rfl
  chars := by
    intro s a h
    have : s = [49, 46, 48, 46, 48, 46, 48] ∨ s = [58, 58, 49] := by
      simp only [AddrText.read, exText] at h
      by_cases h1 : s = [49, 46, 48, 46, 48, 46, 48]
      · exact Or.inl h1
      · rw [if_neg h1] at h
        by_cases h2 : s = [58, 58, 49]
        · exact Or.inr h2
        · simp [h2] at h
    rcases this with rfl | rfl
    · exact ⟨by simp, by unfold AddrChar; decide⟩
    · exact ⟨by simp, by unfold AddrChar; decide⟩

/-- `1.0.0.0/8, ::1` -/
def exAcl : DwStr := ⟨14, 20, [49, 46, 48, 46, 48, 46, 48, 47, 56, 44, 32, 58, 58, 49] ++ List.replicate 8 0⟩

example : Usable exAcl ∧ exAcl.contents = listText [([], [49, 46, 48, 46, 48, 46, 48] ++ 47 :: [56]), ([32], [58, 58, 49])] ∧
    AclItem exText ([49, 46, 48, 46, 48, 46, 48] ++ 47 :: [56]) ⟨[1, 0, 0, 0], decVal [56]⟩ ∧
    (⟨[1, 0, 0, 0], decVal [56]⟩ : Network).Has [1, 2, 3, 4] ∧ ¬ (⟨[1, 0, 0, 0], decVal [56]⟩ : Network).Has [2, 2, 3, 4] :=
  ⟨⟨rfl, by decide, by decide⟩, by decide +kernel, .net (by decide +kernel) ⟨by decide, by decide⟩ (by decide +kernel),
    by decide +kernel, by decide +kernel⟩

/-- `1.0.0.0/` -/
example : setIpmaskList exText ⟨8, 20, [49, 46, 48, 46, 48, 46, 48, 47] ++ List.replicate 14 0⟩ [] =
    .ok [⟨4, 1 :: List.replicate 16 0, List.replicate 17 0⟩] := by decide +kernel

end Acl
end Dw
