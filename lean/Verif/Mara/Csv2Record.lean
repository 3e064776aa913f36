import Verif.Mara.Csv2Strings
import Verif.Mara.ZoneExact
/-!
# Lemmas: whole records in zone files
-/

namespace Mara
namespace Csv2

open Dw (Res)
open Spec (LabelsOk encName dotted lower Name ascii)
open Spec.ZoneText

/-! ## Words -/

theorem lower_plain (c : UInt8) (h : isPlain (lower c) = true) : isText c.toNat = true ∧ c.toNat < 128 := by
  have key : ∀ n : Fin 256, isPlain (lower (UInt8.ofNat n)) = true → isText (UInt8.ofNat n).toNat = true ∧ (UInt8.ofNat n).toNat < 128 := by
    decide +kernel
  have := key ⟨c.toNat, c.toNat_lt⟩
  simp only [UInt8.ofNat_toNat] at this
  exact this h

theorem lower_letter (c : UInt8) (h : 97 ≤ lower c ∧ lower c ≤ 122) : isAlpha c.toNat = true ∧ isAlphanum c.toNat = true ∧ c.toNat < 128 ∧
    c ≠ 43 := by
  have key : ∀ n : Fin 256, 97 ≤ lower (UInt8.ofNat n) ∧ lower (UInt8.ofNat n) ≤ 122 → isAlpha (UInt8.ofNat n).toNat = true ∧
      isAlphanum (UInt8.ofNat n).toNat = true ∧ (UInt8.ofNat n).toNat < 128 ∧ UInt8.ofNat n ≠ 43 := by
    decide +kernel
  have := key ⟨c.toNat, c.toNat_lt⟩
  simp only [UInt8.ofNat_toNat] at this
  exact this h

/-- The words for types. -/
structure Word (w : List UInt8) : Prop where
  some : w ≠ []
  bytes : ∀ c ∈ w, isText c.toNat = true ∧ c.toNat < 128
  first : ∀ c t, w = c :: t → isAlpha c.toNat = true ∧ isAlphanum c.toNat = true ∧ c.toNat < 128 ∧ c ≠ 43
  short : w.length ≤ 256

/-- Is a string good for a word? -/
def wordly (s : String) : Bool :=
  match ascii s with
  | [] => false
  | c :: t => decide (97 ≤ c ∧ c ≤ 122 ∧ t.length ≤ 255 ∧ ∀ d ∈ t, isPlain d = true)

theorem letter_plain (c : UInt8) (h : 97 ≤ c ∧ c ≤ 122) : isPlain c = true := by
  simp [isPlain, h]

theorem says_word {w : List UInt8} {s : String} (h : Says w s) (hs : wordly s = true) : Word w := by
  unfold wordly at hs
  unfold Says at h
  rw [← h] at hs
  cases w with
  | nil => simp at hs
  | cons c t =>
    simp only [List.map_cons, decide_eq_true_eq, List.length_map] at hs
    obtain ⟨h1, h2, h3, h4⟩ := hs
    refine ⟨by simp, ?_, ?_, by simp; omega⟩
    · intro d hd
      rcases List.mem_cons.mp hd with rfl | hd
      · exact lower_plain d (letter_plain _ ⟨h1, h2⟩)
      · exact lower_plain d (h4 _ (List.mem_map_of_mem hd))
    · rintro d t' e
      simp only [List.cons.injEq] at e
      rw [← e.1]
      exact lower_letter c ⟨h1, h2⟩

theorem says_rtype {w : List UInt8} {s : String} (h : Says w s) :
    numericRtype w = match rtypes.find? fun e => e.1 == ascii s with | some e => e.2 | none => -1 := by
  unfold numericRtype
  rw [Zf.lowByte_eq, show List.map lower w = ascii s from h]
  rfl

/-- What `csv2_get_rtype` does after a word. -/
def rtypeEnd (n : Nat) (ret : Int) : P Nat :=
  if ret = -3 then do
    let q ← get1st isNumber 0
    if q < 0 then die
    else do
      let v ← getNat
      if v + 100000 > 2147483647 then undef else pure (v + 100000)
  else if ret = -2 then getRtype n
  else if ret = -1 then fail
  else pure ret.toNat

theorem getRtype_word {s s0 : Stream} (h : Plain s) (w : List UInt8) (hw : Word w) (p : Piece) (hp : p.Ok) (c : UInt8) (t r : List UInt8)
    (ht : w = c :: t) (hq : get1st isAlpha 0 s0 = .ok (some 1, s.here c (t ++ (p.text ++ r)))) (n : Nat) :
    getRtype (n + 1) s0 = rtypeEnd n (numericRtype w) (s.here (last p) r) := by
  rw [getRtype, bind_ok hq, if_neg (by simp)]
  rw [bind_ok (something_run h skips_text p hp c t r (by rw [← ht]; exact hw.short) (by rw [← ht]; exact hw.bytes)), ← ht]
  rfl

/-- The text of classes. -/
def classText (cs : List (List UInt8 × Gap)) : List UInt8 := cs.flatMap fun c => c.1 ++ c.2.text

theorem getRtype_run {s : Stream} (h : Plain s) (w : List UInt8) (hw : Word w) (p : Piece) (hp : p.Ok) (r : List UInt8) :
    ∀ (cs : List (List UInt8 × Gap)) (n : Nat) (s0 : Stream) (c : UInt8) (t : List UInt8), (∀ x ∈ cs, Says x.1 "in" ∧ x.2.Ok) →
      classText cs ++ (w ++ (p.text ++ r)) = c :: t → get1st isAlpha 0 s0 = .ok (some 1, s.here c t) → cs.length < n →
      ∃ m, getRtype n s0 = rtypeEnd m (numericRtype w) (s.here (last p) r)
  | [], n + 1, s0, c, t, _, ht, hq, _ => by
    obtain ⟨d, t', hd⟩ := List.exists_cons_of_ne_nil hw.some
    refine ⟨n, ?_⟩
    simp only [classText, List.flatMap_nil, List.nil_append] at ht
    rw [hd] at ht
    simp only [List.cons_append, List.cons.injEq] at ht
    rw [← ht.1, ← ht.2] at hq
    exact getRtype_word h w hw p hp d t' r hd hq n
  | (x, g) :: cs, n + 1, s0, c, t, hcs, ht, hq, hn => by
    obtain ⟨hx, hg⟩ := hcs (x, g) (by simp)
    simp only at hx hg
    have hxw := says_word hx (by decide)
    obtain ⟨d, t', hd⟩ := List.exists_cons_of_ne_nil hxw.some
    have hr : numericRtype x = -2 := by rw [says_rtype hx]; decide
    have e : classText ((x, g) :: cs) ++ (w ++ (p.text ++ r)) =
        x ++ (g.first.text ++ (pieces g.rest ++ (classText cs ++ (w ++ (p.text ++ r))))) := by
      simp [classText, Gap.text]
    rw [e, hd] at ht
    simp only [List.cons_append, List.cons.injEq] at ht
    rw [← ht.1, ← ht.2] at hq
    have e2 := getRtype_word h x hxw g.first hg.first d t' _ hd hq n
    rw [e2, hr]
    -- the next word
    have hne : ∃ c2 t2, classText cs ++ (w ++ (p.text ++ r)) = c2 :: t2 ∧ isAlpha c2.toNat = true ∧ c2.toNat < 128 := by
      cases cs with
      | nil =>
        obtain ⟨d2, t2, hd2⟩ := List.exists_cons_of_ne_nil hw.some
        exact ⟨d2, t2 ++ (p.text ++ r), by simp [classText, hd2], (hw.first _ _ hd2).1, (hw.first _ _ hd2).2.2.1⟩
      | cons y cs =>
        have hyw := says_word (hcs y (by simp)).1 (by decide)
        obtain ⟨d2, t2, hd2⟩ := List.exists_cons_of_ne_nil hyw.some
        refine ⟨d2, t2 ++ (y.2.text ++ (classText cs ++ (w ++ (p.text ++ r)))), ?_, (hyw.first _ _ hd2).1, (hyw.first _ _ hd2).2.2.1⟩
        simp [classText, hd2]
    obtain ⟨c2, t2, hc2, ha, hl⟩ := hne
    rw [hc2]
    obtain ⟨m, hm⟩ := getRtype_run h w hw p hp r cs n (s.here (last g.first) (pieces g.rest ++ c2 :: t2)) c2 t2
      (fun y hy => hcs y (by simp [hy])) hc2 (get1st_gap h skips_alpha g hg c2 ha hl t2) (by simpa using hn)
    exact ⟨m, by rw [← hm]; rfl⟩

theorem rtypeEnd_nat (m v : Nat) (s : Stream) : rtypeEnd m (v : Int) s = .ok (some v, s) := by
  rw [rtypeEnd, if_neg (by omega), if_neg (by omega), if_neg (by omega)]
  rfl

theorem rtypeEnd_raw {s : Stream} (h : Plain s) (m : Nat) (g : Gap) (hg : g.Ok) (l : List UInt8) (hl : NumOk l) (hv : value l ≤ 65535)
    (p : Piece) (hp : p.Ok) (r : List UInt8) :
    rtypeEnd m (-3) (s.here (last g.first) (pieces g.rest ++ (l ++ (p.text ++ r)))) = .ok (some (value l + 100000), s.here (last p) r) := by
  obtain ⟨d, t, hd⟩ := List.exists_cons_of_ne_nil hl.some
  have hdd := digit_facts d (hl.digits d (by rw [hd]; simp))
  have e1 : l ++ (p.text ++ r) = d :: (t ++ (p.text ++ r)) := by rw [hd]; rfl
  have hns : isNumberOrSlash d.toNat = true := by simp [isNumberOrSlash, hdd.1]
  have e2 := getNat_of (value l) (getNum_of h l hl p hp d t r hd (get1st_now h d hns hdd.2.1 (t ++ (p.text ++ r))))
  rw [rtypeEnd, if_pos rfl, e1, bind_ok (get1st_gap h skips_number g hg d hdd.1 hdd.2.1 _), if_neg (by simp), bind_ok e2, if_neg (by omega)]
  rfl

/-! ## Data -/

theorem getSoa_run {s : Stream} (h : Plain s) (serial : Nat) (hser : serial < 2 ^ 32) (g : Gap) (hg : g.Ok) (n : NameText) (origin : Name)
    (g1 : Gap) (hn : Body.NameOk n origin g1.first) (ho : OriginOk origin) (hg1 : g1.Ok) (m : Mail) (hm : m.Ok origin) (g2 : Gap)
    (hg2 : g2.Ok) (hrel : m.host.relative = true → g2.first.isComment = false) (sn : Option (List UInt8)) (hsn : ∀ l, sn = some l → NumOk l)
    (g3 : Gap) (hg3 : g3.Ok) (hnone : sn = none → g3.first.isComment = false) (a b c d : List UInt8) (hnum : ∀ l ∈ [a, b, c, d], NumOk l)
    (g4 g5 g6 : Gap) (hg4 : g4.Ok) (hg5 : g5.Ok) (hg6 : g6.Ok) (hsz : (encName (n.name origin)).length + (m.data origin).length ≤ 491)
    (p : Piece) (hp : p.Ok) (r : List UInt8) :
    getSoa (dotted origin) serial (s.here (last g.first) (pieces g.rest ++ (n.text ++ (g1.first.text ++ (pieces g1.rest ++ (m.text ++
      (g2.first.text ++ (pieces g2.rest ++ (Body.serialText sn ++ (g3.first.text ++ (pieces g3.rest ++ (a ++ (g4.first.text ++ (pieces g4.rest ++
      (b ++ (g5.first.text ++ (pieces g5.rest ++ (c ++ (g6.first.text ++ (pieces g6.rest ++ (d ++ (p.text ++ r)))))))))))))))))))))) =
      .ok (some (encName (n.name origin) ++ m.data origin ++ Spec.num32 ((sn.map value).getD serial) ++ Spec.num32 (value a) ++
        Spec.num32 (value b) ++ Spec.num32 (value c) ++ Spec.num32 (value d)), s.here (last p) r) := by
  have n4 : ∀ x, (Spec.num32 x).length = 4 := fun _ => rfl
  rw [getSoa, bind_ok (getName_run h g hg n origin g1.first hg1.first hn ho _), bind_orFail (jsAppend_run 512 [] _ (by simp; omega))]
  have e1 := getMbox_step h g1 hg1 m origin hm ho g2.first hg2.first hrel 0 [] (by simp; omega)
    (pieces g2.rest ++ (Body.serialText sn ++ (g3.first.text ++ (pieces g3.rest ++ (a ++ (g4.first.text ++ (pieces g4.rest ++
      (b ++ (g5.first.text ++ (pieces g5.rest ++ (c ++ (g6.first.text ++ (pieces g6.rest ++ (d ++ (p.text ++ r)))))))))))))))
  rw [getMbox, pure_run] at e1
  rw [bind_ok e1, List.nil_append, List.nil_append, bind_orFail (jsAppend_run 512 _ _ (by omega))]
  have e2 : ∀ rest, soaNums serial 5 true (encName (n.name origin) ++ m.data origin)
      (s.here (last g2.first) (pieces g2.rest ++ (Body.serialText sn ++ (g3.first.text ++ rest)))) =
      soaNums serial 4 false (encName (n.name origin) ++ m.data origin ++ Spec.num32 ((sn.map value).getD serial)) (s.here (last g3.first) rest) := by
    intro rest
    cases sn with
    | none =>
      exact soaNums_serial h serial hser 4 _ g2 hg2 g3.first hg3.first (hnone rfl) (by simp; omega) rest
    | some l => exact soaNums_step h serial 4 true _ g2 hg2 l (hsn l rfl) g3.first hg3.first (by simp; omega) rest
  rw [e2, soaNums_step h serial 3 false _ g3 hg3 a (hnum a (by simp)) g4.first hg4.first (by simp [n4]; omega),
    soaNums_step h serial 2 false _ g4 hg4 b (hnum b (by simp)) g5.first hg5.first (by simp [n4]; omega),
    soaNums_step h serial 1 false _ g5 hg5 c (hnum c (by simp)) g6.first hg6.first (by simp [n4]; omega),
    soaNums_step h serial 0 false _ g6 hg6 d (hnum d (by simp)) p hp (by simp [n4]; omega), soaNums]
  rfl

/-! ## Records -/

/-- Where the text goes on after what follows a record. -/
def sepRest (sep : Sep) (r : List UInt8) : List UInt8 := pieces sep.before ++ ((if sep.tilde then [126] else []) ++ (pieces sep.after ++ r))

theorem sep_text (sep : Sep) (r : List UInt8) : sep.text ++ r = sep.first.text ++ sepRest sep r := by
  simp [Sep.text, sepRest]

/-- The state after a record: its end has been read, and the tilde as well after strings. -/
def Left (m : Nat) (sep : Sep) (r : List UInt8) (s1 : Stream) : Prop :=
  ∃ s', Plain s' ∧ s'.mode = m ∧ (s1 = s'.here (last sep.first) (sepRest sep r) ∨ (m = 103 ∧ sep.tilde = true ∧ s1 = s'.here 126 (pieces sep.after ++ r)))

/-- The body of a record that begins with a word. -/
def wordOf : Body → Option (List UInt8 × Gap)
  | .bare _ => none
  | .addr w _ g _ => some (w, g)
  | .addr6 w _ g _ => some (w, g)
  | .name w _ g _ => some (w, g)
  | .pref w _ g _ _ _ => some (w, g)
  | .mail w _ g _ => some (w, g)
  | .srv w g _ _ _ _ _ _ _ => some (w, g)
  | .soa w g _ _ _ _ _ _ _ _ _ _ _ _ _ => some (w, g)
  | .strs w _ g _ => some (w, g)
  | .fixed w _ g _ => some (w, g)
  | .raw w g _ _ _ => some (w, g)

theorem tilde_plain {s : Stream} (h : Plain s) (hs : s.tildeSeen ≤ 5) : Plain s.tilde :=
  ⟨h.isOpen, h.newline, h.stack, by show s.tildeSeen + 1 < 10; omega⟩

theorem forText_seen (s : Stream) : s.forText.tildeSeen = s.tildeSeen := by
  unfold Stream.forText
  split_ifs <;> rfl

/-- The type and the data of a record. -/
theorem body_run {s : Stream} (h : Plain s) (hts : s.tildeSeen ≤ 5) (origin : Name) (ho : OriginOk origin) (p : Ps) (hpo : p.origin = dotted origin)
    (hser : p.serial < 2 ^ 32) (sep : Sep) (hsep : sep.Ok) (b : Body) (hb : b.Ok origin sep.first) (hnb : ∀ ip, b ≠ .bare ip)
    (hstr : b.isStrs = true → sep.tilde = true → sep.before.length < 4000 ∧ ∀ q ∈ sep.first :: sep.before, q.isPipe = false)
    (hfree : b.isFree = true → s.mode ≠ 2 ∧ s.mode ≠ 102) (h103 : s.mode = 103 → sep.tilde = true)
    (cs : List (List UInt8 × Gap)) (hcs : ∀ x ∈ cs, Says x.1 "in" ∧ x.2.Ok) (n : Nat) (hn : cs.length < n) (s0 : Stream) (c : UInt8)
    (t r : List UInt8) (ht : classText cs ++ (b.text ++ (sep.text ++ r)) = c :: t)
    (hq : get1st isAlpha 0 s0 = .ok (some 1, s.here c t)) :
    ∃ s1, (do let t ← getRtype n; getData p t : P _) s0 = .ok (some (some (b.type, b.data origin p.serial)), s1) ∧ Left s.mode sep r s1 := by
  have hlast : Left s.mode sep r (s.here (last sep.first) (sepRest sep r)) := ⟨s, h, rfl, Or.inl rfl⟩
  have hstring : ∀ (chunks : Int) (g : Gap) (l : List Str), 0 ≤ chunks → g.Ok → StrsOk l → (chunks = 0 ∨ chunks = (l.length : Int)) →
      b.isStrs = true → ∃ s1, getString chunks (s.here (last g.first) (pieces g.rest ++ (strsText l ++ (sep.first.text ++ sepRest sep r)))) =
        .ok (some (l.flatMap strData), s1) ∧ Left s.mode sep r s1 := by
    intro chunks g l hch hg hl hk hbs
    by_cases hm : s.mode = 103
    · have htl := h103 hm
      obtain ⟨hlen, hpp⟩ := hstr hbs htl
      have e := getString_tilde h chunks hch hm g hg l hl hk (sep.first :: sep.before)
        (fun q hq => ⟨by rcases List.mem_cons.mp hq with rfl | hq; exacts [hsep.first, hsep.before q hq], hpp q hq⟩) (by simp; omega)
        (pieces sep.after ++ r)
      refine ⟨_, ?_, s.forText.tilde, tilde_plain (forText_plain h) (by rw [forText_seen]; exact hts), ?_, Or.inr ⟨hm, htl, rfl⟩⟩
      · rw [← e]
        simp [sepRest, htl, pieces]
      · show s.forText.mode = _
        rw [forText_mode]
    · exact ⟨_, getString_run h chunks hch hm g hg l hl hk sep.first hsep.first (sepRest sep r), s.forText, forText_plain h, forText_mode s,
        Or.inl rfl⟩
  rw [sep_text] at ht
  cases b with
  | bare ip => exact absurd rfl (hnb ip)
  | addr w k g ip =>
    obtain ⟨hk, hw, hg, hi⟩ := hb
    have hword : Word w ∧ numericRtype w = k.2 ∧ (k.2 = 1 ∨ k.2 = 65765) := by
      simp only [addrTypes, List.mem_cons, List.not_mem_nil, or_false] at hk
      rcases hk with rfl | rfl <;> exact ⟨says_word hw (by decide), by rw [says_rtype hw]; decide, by decide⟩
    obtain ⟨m, e1⟩ := getRtype_run h w hword.1 g.first hg.first (pieces g.rest ++ (ip.text ++ (sep.first.text ++ sepRest sep r))) cs n s0 c t hcs
      (by rw [← ht]; simp [Body.text, Gap.text]) hq hn
    rw [hword.2.1, rtypeEnd_nat] at e1
    obtain ⟨d, t', hd, hdn⟩ : ∃ d t', ip.text = d :: t' ∧ isDigit d = true := by
      obtain ⟨ha, hb, -⟩ := hi.2 ip.a (by simp)
      obtain ⟨d, t', hd⟩ := List.exists_cons_of_ne_nil ha
      exact ⟨d, t' ++ 46 :: (ip.b ++ 46 :: (ip.c ++ 46 :: ip.d)), by simp [Ip4.text, hd], hb d (by rw [hd]; simp)⟩
    have hdf := digit_facts d hdn
    have e2 : getA (s.here (last g.first) (pieces g.rest ++ (ip.text ++ (sep.first.text ++ sepRest sep r)))) = _ :=
      getA_of h ip hi sep.first hsep.first d t' (sepRest sep r) hd
        (by rw [hd]; exact get1st_gap h skips_number g hg d hdf.1 hdf.2.1 _)
    refine ⟨_, ?_, hlast⟩
    rw [bind_ok e1, getData, bind_get]
    simp only []
    rw [if_pos hword.2.2, bind_ok e2]
    rfl
  | addr6 w k g ip =>
    obtain ⟨hk, hw, hg, hi⟩ := hb
    have hword : Word w ∧ numericRtype w = k.2 ∧ (k.2 = 28 ∨ k.2 = 65766) := by
      simp only [addr6Types, List.mem_cons, List.not_mem_nil, or_false] at hk
      rcases hk with rfl | rfl <;> exact ⟨says_word hw (by decide), by rw [says_rtype hw]; decide, by decide⟩
    obtain ⟨m, e1⟩ := getRtype_run h w hword.1 g.first hg.first (pieces g.rest ++ (ip.text ++ (sep.first.text ++ sepRest sep r))) cs n s0 c t hcs
      (by rw [← ht]; simp [Body.text, Gap.text]) hq hn
    rw [hword.2.1, rtypeEnd_nat] at e1
    refine ⟨_, ?_, hlast⟩
    rw [bind_ok e1, getData, bind_get]
    simp only []
    rw [if_neg (by omega), if_pos hword.2.2, bind_ok (getAaaa_run h g hg ip hi sep.first hsep.first _)]
    rfl
  | name w k g nm =>
    obtain ⟨hk, hw, hg, hi⟩ := hb
    have hword : Word w ∧ numericRtype w = k.2 ∧ (k.2 = 2 ∨ k.2 = 5 ∨ k.2 = 12 ∨ k.2 = 23 ∨ k.2 = 7) := by
      simp only [nameTypes, List.mem_cons, List.not_mem_nil, or_false] at hk
      rcases hk with rfl | rfl | rfl | rfl | rfl <;> exact ⟨says_word hw (by decide), by rw [says_rtype hw]; decide, by decide⟩
    obtain ⟨m, e1⟩ := getRtype_run h w hword.1 g.first hg.first (pieces g.rest ++ (nm.text ++ (sep.first.text ++ sepRest sep r))) cs n s0 c t hcs
      (by rw [← ht]; simp [Body.text, Gap.text]) hq hn
    rw [hword.2.1, rtypeEnd_nat] at e1
    refine ⟨_, ?_, hlast⟩
    rw [bind_ok e1, getData, bind_get, hpo]
    simp only []
    rw [if_neg (by omega), if_neg (by omega), if_neg (by omega), if_neg (by omega), if_neg (by omega), if_neg (by omega), if_neg (by omega),
      if_neg (by omega), if_pos hword.2.2, bind_ok (getName_run h g hg nm origin sep.first hsep.first hi ho _)]
    rfl
  | pref w k g pr g' nm =>
    obtain ⟨hk, hw, hg, hpr, hpv, hg', hi, hsz⟩ := hb
    have hword : Word w ∧ numericRtype w = k.2 ∧ (k.2 = 15 ∨ k.2 = 18 ∨ k.2 = 21) := by
      simp only [prefTypes, List.mem_cons, List.not_mem_nil, or_false] at hk
      rcases hk with rfl | rfl | rfl <;> exact ⟨says_word hw (by decide), by rw [says_rtype hw]; decide, by decide⟩
    obtain ⟨m, e1⟩ := getRtype_run h w hword.1 g.first hg.first
      (pieces g.rest ++ (pr ++ (g'.first.text ++ (pieces g'.rest ++ (nm.text ++ (sep.first.text ++ sepRest sep r)))))) cs n s0 c t hcs
      (by rw [← ht]; simp [Body.text, Gap.text]) hq hn
    rw [hword.2.1, rtypeEnd_nat] at e1
    refine ⟨_, ?_, hlast⟩
    rw [bind_ok e1, getData, bind_get, hpo]
    simp only []
    rw [if_neg (by omega), if_neg (by omega), if_neg (by omega), if_pos hword.2.2,
      bind_ok (getMx_run h g hg pr hpr hpv g' hg' nm origin sep.first hsep.first hi ho hsz _)]
    rfl
  | mail w k g nm =>
    obtain ⟨hk, hw, hg, hi, hsz⟩ := hb
    have hword : Word w ∧ ((numericRtype w = (3 : Nat) ∧ k.2 = 0) ∨ (numericRtype w = (4 : Nat) ∧ k.2 = 10)) := by
      simp only [mailTypes, List.mem_cons, List.not_mem_nil, or_false] at hk
      rcases hk with rfl | rfl <;> exact ⟨says_word hw (by decide), by rw [says_rtype hw]; decide⟩
    obtain ⟨m, e1⟩ := getRtype_run h w hword.1 g.first hg.first (pieces g.rest ++ (nm.text ++ (sep.first.text ++ sepRest sep r))) cs n s0 c t hcs
      (by rw [← ht]; simp [Body.text, Gap.text]) hq hn
    have e2 := fun v hv => getMx_fixed h v hv g hg nm origin sep.first hsep.first hi ho hsz (sepRest sep r)
    refine ⟨_, ?_, hlast⟩
    rcases hword.2 with ⟨hr, hv⟩ | ⟨hr, hv⟩
    · rw [hr, rtypeEnd_nat] at e1
      have e3 : getMx (dotted origin) 0 _ = _ := e2 0 (by omega)
      rw [bind_ok e1, getData, bind_get, hpo]
      simp only []
      rw [if_neg (by omega), if_neg (by omega), if_neg (by omega), if_neg (by omega), if_neg (by omega), if_neg (by omega), if_neg (by omega),
        if_neg (by omega), if_neg (by omega), if_neg (by omega), if_neg (by omega), if_pos (by trivial), bind_ok e3]
      simp only [Body.type, Body.data, hv]
      rfl
    · rw [hr, rtypeEnd_nat] at e1
      have e3 : getMx (dotted origin) 10 _ = _ := e2 10 (by omega)
      rw [bind_ok e1, getData, bind_get, hpo]
      simp only []
      rw [if_neg (by omega), if_neg (by omega), if_neg (by omega), if_neg (by omega), if_neg (by omega), if_neg (by omega), if_neg (by omega),
        if_neg (by omega), if_neg (by omega), if_neg (by omega), if_neg (by omega), if_neg (by omega), if_pos (by trivial), bind_ok e3]
      simp only [Body.type, Body.data, hv]
      rfl
  | srv w g a g1 b g2 cc g3 nm =>
    obtain ⟨hw, hg, hl, hg1, hg2, hg3, hi, hsz⟩ := hb
    have hr : numericRtype w = (33 : Nat) := by rw [says_rtype hw]; decide
    obtain ⟨m, e1⟩ := getRtype_run h w (says_word hw (by decide)) g.first hg.first
      (pieces g.rest ++ (a ++ (g1.first.text ++ (pieces g1.rest ++ (b ++ (g2.first.text ++ (pieces g2.rest ++ (cc ++ (g3.first.text ++
        (pieces g3.rest ++ (nm.text ++ (sep.first.text ++ sepRest sep r)))))))))))) cs n s0 c t hcs
      (by rw [← ht]; simp [Body.text, Gap.text]) hq hn
    rw [hr, rtypeEnd_nat] at e1
    refine ⟨_, ?_, hlast⟩
    rw [bind_ok e1, getData, bind_get, hpo]
    simp only []
    rw [if_neg (by omega), if_neg (by omega), if_neg (by omega), if_neg (by omega), if_pos (by trivial),
      bind_ok (getSrv_run h g hg a b cc hl g1 g2 g3 hg1 hg2 hg3 nm origin sep.first hsep.first hi ho hsz _)]
    rfl
  | soa w g nm g1 mb g2 sn g3 a g4 b g5 cc g6 d =>
    obtain ⟨hw, hg, hnm, hg1, hm, hrel, hg2, hsn, hnone, hg3, hnum, hg4, hg5, hg6, hsz⟩ := hb
    have hr : numericRtype w = (6 : Nat) := by rw [says_rtype hw]; decide
    obtain ⟨m, e1⟩ := getRtype_run h w (says_word hw (by decide)) g.first hg.first
      (pieces g.rest ++ (nm.text ++ (g1.first.text ++ (pieces g1.rest ++ (mb.text ++
      (g2.first.text ++ (pieces g2.rest ++ (Body.serialText sn ++ (g3.first.text ++ (pieces g3.rest ++ (a ++ (g4.first.text ++ (pieces g4.rest ++
      (b ++ (g5.first.text ++ (pieces g5.rest ++ (cc ++ (g6.first.text ++ (pieces g6.rest ++
        (d ++ (sep.first.text ++ sepRest sep r))))))))))))))))))))) cs n s0 c t hcs
      (by rw [← ht]; simp [Body.text, Gap.text]) hq hn
    rw [hr, rtypeEnd_nat] at e1
    refine ⟨_, ?_, hlast⟩
    rw [bind_ok e1, getData, bind_get, hpo]
    simp only []
    rw [if_neg (by omega), if_neg (by omega), if_pos (by trivial),
      bind_ok (getSoa_run h p.serial hser g hg nm origin g1 hnm ho hg1 mb hm g2 hg2 hrel sn hsn g3 hg3 hnone a b cc d hnum g4 g5 g6 hg4 hg5 hg6 hsz
        sep.first hsep.first _)]
    rfl
  | strs w k g l =>
    obtain ⟨hk, hw, hg, hl⟩ := hb
    have hword : Word w ∧ numericRtype w = k.2 ∧ (k.2 = 16 ∨ k.2 = 19 ∨ k.2 = 20 ∨ k.2 = 99) := by
      simp only [strTypes, List.mem_cons, List.not_mem_nil, or_false] at hk
      rcases hk with rfl | rfl | rfl | rfl <;> exact ⟨says_word hw (by decide), by rw [says_rtype hw]; decide, by decide⟩
    obtain ⟨m, e1⟩ := getRtype_run h w hword.1 g.first hg.first (pieces g.rest ++ (strsText l ++ (sep.first.text ++ sepRest sep r))) cs n s0 c t hcs
      (by rw [← ht]; simp [Body.text, Gap.text]) hq hn
    rw [hword.2.1, rtypeEnd_nat] at e1
    obtain ⟨s1, e2, e3⟩ := hstring 0 g l (by omega) hg hl (Or.inl rfl) rfl
    refine ⟨s1, ?_, e3⟩
    have hf := hfree rfl
    have hfirst : ∀ j x, ¬ (decide ((s.here j x).mode = 2 ∨ (s.here j x).mode = 102) = true) := by
      intro j x
      show ¬ (decide (s.mode = 2 ∨ s.mode = 102) = true)
      simp [hf]
    rw [bind_ok e1, getData, bind_get]
    simp only []
    rw [if_neg (by omega), if_neg (by omega), if_neg (by omega), if_neg (by omega), if_neg (by omega), if_pos hword.2.2]
    rw [if_neg (hfirst _ _), bind_ok e2]
    rfl
  | fixed w k g l =>
    obtain ⟨hk, hw, hg, hl, hlen⟩ := hb
    have hword : Word w ∧ numericRtype w = k.2.1 ∧ ((k.2.1 = 13 ∧ k.2.2 = 2) ∨ (k.2.1 = 27 ∧ k.2.2 = 3)) := by
      simp only [fixedTypes, List.mem_cons, List.not_mem_nil, or_false] at hk
      rcases hk with rfl | rfl <;> exact ⟨says_word hw (by decide), by rw [says_rtype hw]; decide, by decide⟩
    obtain ⟨m, e1⟩ := getRtype_run h w hword.1 g.first hg.first (pieces g.rest ++ (strsText l ++ (sep.first.text ++ sepRest sep r))) cs n s0 c t hcs
      (by rw [← ht]; simp [Body.text, Gap.text]) hq hn
    rw [hword.2.1, rtypeEnd_nat] at e1
    obtain ⟨s1, e2, e3⟩ := hstring (k.2.2 : Int) g l (by omega) hg hl (Or.inr (by rw [hlen])) rfl
    refine ⟨s1, ?_, e3⟩
    rw [bind_ok e1, getData, bind_get]
    simp only []
    rcases hword.2.2 with ⟨ha, hb⟩ | ⟨ha, hb⟩
    · rw [hb] at e2
      change getString 2 _ = _ at e2
      rw [if_neg (by omega), if_neg (by omega), if_neg (by omega), if_neg (by omega), if_neg (by omega), if_neg (by omega), if_neg (by omega),
        if_neg (by omega), if_neg (by omega), if_pos ha, bind_ok e2]
      rfl
    · rw [hb] at e2
      change getString 3 _ = _ at e2
      rw [if_neg (by omega), if_neg (by omega), if_neg (by omega), if_neg (by omega), if_neg (by omega), if_neg (by omega), if_neg (by omega),
        if_neg (by omega), if_neg (by omega), if_neg (by omega), if_pos ha, bind_ok e2]
      rfl
  | raw w g tn g' x =>
    obtain ⟨hw, hg, htn, htv, htm, hg', hbits, hne, hdl, htl, hcom⟩ := hb
    have hr : numericRtype w = -3 := by rw [says_rtype hw]; decide
    obtain ⟨m, e1⟩ := getRtype_run h w (says_word hw (by decide)) g.first hg.first
      (pieces g.rest ++ (tn ++ (g'.first.text ++ (pieces g'.rest ++ (x.text ++ (sep.first.text ++ sepRest sep r)))))) cs n s0 c t hcs
      (by rw [← ht]; simp [Body.text, Gap.text]) hq hn
    rw [hr, rtypeEnd_raw h m g hg tn htn htv g'.first hg'.first] at e1
    have e2 := getString_raw h g' hg' x hbits hne hdl htl sep.first hsep.first hcom (sepRest sep r)
    refine ⟨_, ?_, s.forText, forText_plain h, forText_mode s, Or.inl rfl⟩
    simp only [List.mem_cons, List.not_mem_nil, or_false, not_or] at htm
    rw [bind_ok e1, getData, bind_get]
    simp only []
    rw [if_neg (by omega), if_neg (by omega), if_neg (by omega), if_neg (by omega), if_neg (by omega), if_neg (by omega), if_neg (by omega),
      if_neg (by omega), if_neg (by omega), if_neg (by omega), if_neg (by omega), if_neg (by omega), if_neg (by omega), if_neg (by omega),
      if_neg (by omega), if_neg (by omega), if_pos (by omega), if_neg (by omega), bind_ok e2]
    simp only [Body.type, Body.data, Nat.add_sub_cancel]
    rfl

end Csv2
end Mara
