import Verif.Mara.Csv2Record
/-!
# Lemmas: the lines of zone files
-/

namespace Mara
namespace Csv2

open Dw (Res)
open Spec (LabelsOk encName dotted lower Name ascii ZoneLine)
open Spec.ZoneText

/-! ## Records -/

theorem bind_assoc' {α β γ : Type} (x : P α) (y : α → P β) (z : β → P γ) (s : Stream) :
    (x >>= fun t => y t >>= z) s = ((x >>= y) >>= z) s := by
  simp only [Bind.bind]
  rcases x s with ⟨_ | _, _⟩ | _ | _ <;> rfl

/-- The text of a TTL. -/
def ttlText : Option (List UInt8 × Gap) → List UInt8
  | some (l, g) => 43 :: (l ++ g.text)
  | none => []

theorem record_text (n : NameText) (g : Gap) (tt : Option (List UInt8 × Gap)) (cs : List (List UInt8 × Gap)) (b : Body) :
    (Line.record n g tt cs b).text = n.text ++ g.text ++ ttlText tt ++ classText cs ++ b.text := by
  cases tt <;> rfl

/-- `record` after the TTL. -/
def recTail (p : Ps) (name : List UInt8) (ttl : Nat) : P (Option Entry) := do
  let s ← get
  if isAlpha s.just then do
    let t ← getRtype (s.input.length + (s.stack.map List.length).sum + 2)
    let d ← getData p t
    match d with
    | none => pure none
    | some (t, d) => pure (some ⟨name, t, ttl, some d⟩)
  else if isNumber s.just then bareA name ttl
  else die

theorem wordOf_text {origin : Name} {next : Piece} {b : Body} (hb : b.Ok origin next) (hnb : ∀ ip, b ≠ .bare ip) :
    ∃ w r, Word w ∧ b.text = w ++ r := by
  cases b with
  | bare ip => exact absurd rfl (hnb ip)
  | addr w k g ip =>
    obtain ⟨hk, hw, -⟩ := hb
    simp only [addrTypes, List.mem_cons, List.not_mem_nil, or_false] at hk
    refine ⟨w, _, ?_, by simp only [Body.text, List.append_assoc]; rfl⟩
    rcases hk with rfl | rfl <;> exact says_word hw (by decide)
  | addr6 w k g ip =>
    obtain ⟨hk, hw, -⟩ := hb
    simp only [addr6Types, List.mem_cons, List.not_mem_nil, or_false] at hk
    refine ⟨w, _, ?_, by simp only [Body.text, List.append_assoc]; rfl⟩
    rcases hk with rfl | rfl <;> exact says_word hw (by decide)
  | name w k g nm =>
    obtain ⟨hk, hw, -⟩ := hb
    simp only [nameTypes, List.mem_cons, List.not_mem_nil, or_false] at hk
    refine ⟨w, _, ?_, by simp only [Body.text, List.append_assoc]; rfl⟩
    rcases hk with rfl | rfl | rfl | rfl | rfl <;> exact says_word hw (by decide)
  | pref w k g pr g' nm =>
    obtain ⟨hk, hw, -⟩ := hb
    simp only [prefTypes, List.mem_cons, List.not_mem_nil, or_false] at hk
    refine ⟨w, _, ?_, by simp only [Body.text, List.append_assoc]; rfl⟩
    rcases hk with rfl | rfl | rfl <;> exact says_word hw (by decide)
  | mail w k g nm =>
    obtain ⟨hk, hw, -⟩ := hb
    simp only [mailTypes, List.mem_cons, List.not_mem_nil, or_false] at hk
    refine ⟨w, _, ?_, by simp only [Body.text, List.append_assoc]; rfl⟩
    rcases hk with rfl | rfl <;> exact says_word hw (by decide)
  | srv w g a g1 b g2 cc g3 nm => exact ⟨w, _, says_word hb.1 (by decide), by simp only [Body.text, List.append_assoc]; rfl⟩
  | soa w g nm g1 mb g2 sn g3 a g4 b g5 cc g6 d =>
    exact ⟨w, _, says_word hb.1 (by decide), by simp only [Body.text, List.append_assoc]; rfl⟩
  | strs w k g l =>
    obtain ⟨hk, hw, -⟩ := hb
    simp only [strTypes, List.mem_cons, List.not_mem_nil, or_false] at hk
    refine ⟨w, _, ?_, by simp only [Body.text, List.append_assoc]; rfl⟩
    rcases hk with rfl | rfl | rfl | rfl <;> exact says_word hw (by decide)
  | fixed w k g l =>
    obtain ⟨hk, hw, -⟩ := hb
    simp only [fixedTypes, List.mem_cons, List.not_mem_nil, or_false] at hk
    refine ⟨w, _, ?_, by simp only [Body.text, List.append_assoc]; rfl⟩
    rcases hk with rfl | rfl <;> exact says_word hw (by decide)
  | raw w g t g' x => exact ⟨w, _, says_word hb.1 (by decide), by simp only [Body.text, List.append_assoc]; rfl⟩

theorem ip4_head {ip : Ip4} (hi : ip.Ok) : ∃ d t, ip.text = d :: t ∧ isDigit d = true := by
  obtain ⟨ha, hb, -⟩ := hi.2 ip.a (by simp)
  obtain ⟨d, t', hd⟩ := List.exists_cons_of_ne_nil ha
  exact ⟨d, t' ++ 46 :: (ip.b ++ 46 :: (ip.c ++ 46 :: ip.d)), by simp [Ip4.text, hd], hb d (by rw [hd]; simp)⟩

/-- How the type, or an address without a type, begins. -/
theorem tail_head {origin : Name} {next : Piece} {b : Body} (hb : b.Ok origin next) {cs : List (List UInt8 × Gap)}
    (hcs : ∀ x ∈ cs, Says x.1 "in" ∧ x.2.Ok) (hbare : (∃ ip, b = .bare ip) → cs = []) (rest : List UInt8) :
    ∃ c t, classText cs ++ (b.text ++ rest) = c :: t ∧ isAlphanum c.toNat = true ∧ c.toNat < 128 ∧ c ≠ 43 ∧
      ((∀ ip, b ≠ .bare ip) → isAlpha c.toNat = true ∧ cs.length ≤ t.length + 1) ∧
      ((∃ ip, b = .bare ip) → isNumber c.toNat = true ∧ isAlpha c.toNat = false) := by
  by_cases hx : ∃ ip, b = .bare ip
  · obtain ⟨ip, rfl⟩ := hx
    obtain rfl := hbare ⟨ip, rfl⟩
    obtain ⟨d, t, hd, hdd⟩ := ip4_head (ip := ip) hb
    have hf := digit_facts d hdd
    refine ⟨d, t ++ rest, by simp [classText, Body.text, hd], by simp [isAlphanum, hf.1], hf.2.1, ?_, fun h => absurd rfl (h ip), fun _ => ⟨hf.1, ?_⟩⟩
    · rintro rfl
      exact absurd hf.2.2.2.2.1 (by decide)
    · have := hf.1
      simp only [isNumber, decide_eq_true_eq] at this
      simp only [isAlpha, isLower, isUpper, decide_eq_true_eq, decide_eq_false_iff_not]
      omega
  · have hnb : ∀ ip, b ≠ .bare ip := fun ip h => hx ⟨ip, h⟩
    have hw : ∃ w r, Word w ∧ classText cs ++ (b.text ++ rest) = w ++ r ∧ cs.length ≤ (w ++ r).length := by
      obtain ⟨w, r, hw, hwt⟩ := wordOf_text hb hnb
      have hlen : ∀ l : List (List UInt8 × Gap), (∀ x ∈ l, Says x.1 "in" ∧ x.2.Ok) → l.length ≤ (classText l).length := by
        intro l hl
        induction l with
        | nil => simp
        | cons x l ih =>
          have h1 := ih fun y hy => hl y (by simp [hy])
          have h2 := says_word (hl x (by simp)).1 (by decide)
          have h3 := List.length_pos_iff.mpr h2.some
          have e : classText (x :: l) = x.1 ++ x.2.text ++ classText l := by simp [classText]
          rw [e, List.length_append, List.length_append, List.length_cons]
          omega
      cases cs with
      | nil => exact ⟨w, r ++ rest, hw, by simp [classText, hwt], by simp⟩
      | cons x cs =>
        have h1 := says_word (hcs x (by simp)).1 (by decide)
        have h2 := hlen (x :: cs) hcs
        have e : classText (x :: cs) = x.1 ++ (x.2.text ++ classText cs) := by simp [classText]
        refine ⟨x.1, x.2.text ++ classText cs ++ (b.text ++ rest), h1, by rw [e]; simp, ?_⟩
        rw [e] at h2
        simp only [List.length_append] at h2 ⊢
        omega
    obtain ⟨w, r, hw, e, hl⟩ := hw
    obtain ⟨c, t, hc⟩ := List.exists_cons_of_ne_nil hw.some
    obtain ⟨f1, f2, f3, f4⟩ := hw.first c t hc
    refine ⟨c, t ++ r, by rw [e, hc]; rfl, f2, f3, f4, fun _ => ⟨f1, ?_⟩, fun h => absurd h hx⟩
    rw [hc] at hl
    simpa using hl

/-- The text of a record after the TTL. -/
theorem recTail_run {s : Stream} (h : Plain s) (hts : s.tildeSeen ≤ 5) (origin : Name) (ho : OriginOk origin) (p : Ps)
    (hpo : p.origin = dotted origin) (hser : p.serial < 2 ^ 32) (sep : Sep) (hsep : sep.Ok) (b : Body) (hb : b.Ok origin sep.first)
    (hstr : b.isStrs = true → sep.tilde = true → sep.before.length < 4000 ∧ ∀ q ∈ sep.first :: sep.before, q.isPipe = false)
    (hfree : b.isFree = true → s.mode ≠ 2 ∧ s.mode ≠ 102) (h103 : s.mode = 103 → sep.tilde = true)
    (cs : List (List UInt8 × Gap)) (hcs : ∀ x ∈ cs, Says x.1 "in" ∧ x.2.Ok) (hbare : (∃ ip, b = .bare ip) → cs = []) (c : UInt8)
    (t r : List UInt8) (ht : classText cs ++ (b.text ++ (sep.text ++ r)) = c :: t) (name : List UInt8) (ttl : Nat) :
    ∃ s1, recTail p name ttl (s.here c t) = .ok (some (some ⟨name, b.type, ttl, some (b.data origin p.serial)⟩), s1) ∧ Left s.mode sep r s1 := by
  obtain ⟨c', t', e, h1, h2, h3, h4, h5⟩ := tail_head hb hcs hbare (sep.text ++ r)
  rw [ht] at e
  simp only [List.cons.injEq] at e
  obtain ⟨rfl, rfl⟩ := e
  by_cases hx : ∃ ip, b = .bare ip
  · obtain ⟨f1, f2⟩ := h5 hx
    obtain ⟨ip, rfl⟩ := hx
    obtain rfl := hbare ⟨ip, rfl⟩
    obtain ⟨d, t', hd, hdd⟩ := ip4_head (ip := ip) hb
    have hf := digit_facts d hdd
    simp only [classText, List.flatMap_nil, List.nil_append, Body.text, hd, List.cons_append, List.cons.injEq, sep_text] at ht
    obtain ⟨rfl, rfl⟩ := ht
    have e2 := getA_of h ip hb sep.first hsep.first d t' (sepRest sep r) hd
      (get1st_now h d hf.1 hf.2.1 (t' ++ (sep.first.text ++ sepRest sep r)))
    refine ⟨s.here (last sep.first) (sepRest sep r), ?_, s, h, rfl, Or.inl rfl⟩
    rw [recTail, bind_get, just_here h, if_neg (by rw [f2]; simp), if_pos f1, bareA, e2]
    rfl
  · have hnb : ∀ ip, b ≠ .bare ip := fun ip h => hx ⟨ip, h⟩
    obtain ⟨f1, f2⟩ := h4 hnb
    obtain ⟨s1, e1, e2⟩ := body_run h hts origin ho p hpo hser sep hsep b hb hnb hstr hfree h103 cs hcs
      ((s.here c t).input.length + ((s.here c t).stack.map List.length).sum + 2)
      (by show cs.length < t.length + _ + 2; omega) (s.here c t) c t r ht (get1st_now h c f1 h2 t)
    refine ⟨s1, ?_, e2⟩
    rw [recTail, bind_get, just_here h, if_pos f1]
    rw [bind_assoc', bind_ok e1]
    rfl

theorem record_run {s : Stream} (h : Plain s) (hts : s.tildeSeen ≤ 5) (ctx : Ctx) (ho : OriginOk ctx.origin) (p : Ps)
    (hpo : p.origin = dotted ctx.origin) (hpt : p.ttl = ctx.ttl) (hser : p.serial < 2 ^ 32) (sep : Sep) (hsep : sep.Ok) (n : NameText) (g : Gap)
    (tt : Option (List UInt8 × Gap)) (cs : List (List UInt8 × Gap)) (b : Body) (hl : (Line.record n g tt cs b).Ok ctx sep.first)
    (hstr : b.isStrs = true → sep.tilde = true → sep.before.length < 4000 ∧ ∀ q ∈ sep.first :: sep.before, q.isPipe = false)
    (hfree : b.isFree = true → s.mode ≠ 2 ∧ s.mode ≠ 102) (h103 : s.mode = 103 → sep.tilde = true) (c : UInt8) (t r : List UInt8)
    (ht : (Line.record n g tt cs b).text ++ (sep.text ++ r) = c :: t) :
    ∃ s1, record p (s.here c t) = .ok (some (some ⟨Big.base n.star (n.name ctx.origin), b.type,
      ((match tt with | some (l, _) => value l | none => ctx.ttl : Nat) : Int), some (b.data ctx.origin p.serial)⟩), s1) ∧ Left s.mode sep r s1 := by
  obtain ⟨hn, hrel, hg, htt, hcs, hbare, hb⟩ := hl
  obtain ⟨d, nt, hd⟩ := List.exists_cons_of_ne_nil hn.some
  have e : (Line.record n g tt cs b).text ++ (sep.text ++ r) = d :: (nt ++ (g.first.text ++ (pieces g.rest ++
      (ttlText tt ++ (classText cs ++ (b.text ++ (sep.text ++ r))))))) := by
    rw [record_text, hd]
    simp [Gap.text]
  rw [e] at ht
  simp only [List.cons.injEq] at ht
  obtain ⟨rfl, rfl⟩ := ht
  have e1 := hostname_run h n ctx.origin hn ho g.first hg.first hrel 1 (by omega) (by omega) d nt hd
    (pieces g.rest ++ (ttlText tt ++ (classText cs ++ (b.text ++ (sep.text ++ r)))))
  obtain ⟨c2, t2, hc2, a1, a2, a3, -, -⟩ := tail_head hb hcs hbare (sep.text ++ r)
  rw [record, hpo, bind_ok e1]
  cases tt with
  | none =>
    obtain ⟨s1, e3, e4⟩ := recTail_run h hts ctx.origin ho p hpo hser sep hsep b hb hstr hfree h103 cs hcs hbare c2 t2 r hc2
      (Big.base n.star (n.name ctx.origin)) p.ttl
    refine ⟨s1, ?_, e4⟩
    have h43 : ¬ ((c2.toNat : Int) = 43) := ne_int 43 (by decide) a3
    rw [ttlText, List.nil_append, hc2, bind_ok (get1st_gap h skips_alphanumOrPlus g hg c2 (by simp [isAlphanumOrPlus, a1]) a2 t2), if_neg (by omega), bind_get, just_here h]
    simp only []
    rw [if_neg h43, bind_pure']
    exact e3.trans (by rw [hpt])
  | some x =>
    obtain ⟨l, g2⟩ := x
    obtain ⟨hnum, hg2⟩ := htt (l, g2) rfl
    simp only at hnum hg2
    obtain ⟨dd, lt, hdl⟩ := List.exists_cons_of_ne_nil hnum.some
    have hdf := digit_facts dd (hnum.digits dd (by rw [hdl]; simp))
    obtain ⟨s1, e3, e4⟩ := recTail_run h hts ctx.origin ho p hpo hser sep hsep b hb hstr hfree h103 cs hcs hbare c2 t2 r hc2
      (Big.base n.star (n.name ctx.origin)) (value l)
    refine ⟨s1, ?_, e4⟩
    have et : ttlText (some (l, g2)) ++ (classText cs ++ (b.text ++ (sep.text ++ r))) =
        43 :: (dd :: (lt ++ (g2.first.text ++ (pieces g2.rest ++ c2 :: t2)))) := by
      rw [hc2, hdl]
      simp [ttlText, Gap.text]
    have hns : isNumberOrSlash dd.toNat = true := by simp [isNumberOrSlash, hdf.1]
    have hplain := plain_facts dd hdf.2.2.2.2.2.2.1
    have e5 := getNat_of (value l) (getNum_of h l hnum g2.first hg2.first dd lt (pieces g2.rest ++ c2 :: t2) hdl
      (get1st_now h dd hns hdf.2.1 (lt ++ (g2.first.text ++ (pieces g2.rest ++ c2 :: t2)))))
    have hnn := skips_number.ne hdf.1
    rw [et, bind_ok (get1st_gap h skips_alphanumOrPlus g hg 43 (by decide) (by decide) _), if_neg (by omega), bind_get, just_here h]
    simp only []
    rw [if_pos (by decide), bind_ok (readUnicode_here h 43 dd _ hnn.2.2.2.2.2.1 hnn.2.2.2.2.2.2.2 hdf.2.1), if_neg (by omega), bind_ok e5,
      bind_ok (get1st_gap h skips_alphanum g2 hg2 c2 a1 a2 t2), if_neg (by omega), bind_pure']
    exact e3

/-! ## Commands -/

theorem newOrigin_run {s : Stream} (h : Plain s) (p : Ps) (origin : Name) (ho : OriginOk origin) (hpo : p.origin = dotted origin) (g : Gap)
    (hg : g.Ok) (hgc : g.first.isComment = false) (n : NameText) (q : Piece) (hq : q.Ok) (hn : Body.NameOk n origin q) (j : UInt8)
    (r : List UInt8) :
    newOrigin p (s.here j (g.text ++ (n.text ++ (q.text ++ r)))) = .ok (some (dotted (n.name origin)), s.here (last q) r) := by
  obtain ⟨c, t, hc⟩ := List.exists_cons_of_ne_nil hn.ok.some
  obtain ⟨f1, f2, f3, f4, f5⟩ := text_head hn.ok hc
  have hd : ¬ (isDelim (last g.first).toNat = false) := by
    rcases last_delim hg.first with h | h | h | h | h <;> rw [h] <;> decide
  have e1 := read_piece h g.first hg.first hgc j (pieces g.rest ++ (n.text ++ (q.text ++ r)))
  have e2 := appendDname_run h n origin hn.ok ho q hq hn.next 3 (by omega) (fun _ => hn.star) [] (by simp) c t hc r
  have e3 := percent_run hn.ok [] (by simp)
  rw [hn.star] at e3
  simp only [List.nil_append] at e2 e3
  have e4 := process1st_run h (isOk := isStar) [] (by simp) c f2 f1 (t ++ (q.text ++ r))
  simp only [List.nil_append] at e4
  rw [newOrigin, show g.text ++ (n.text ++ (q.text ++ r)) = g.first.text ++ (pieces g.rest ++ (n.text ++ (q.text ++ r))) by simp [Gap.text],
    bind_ok e1, if_neg hd, hc, List.cons_append, bind_ok (get1st_gap h skips_dchar g hg c (f4 hn.star) f1 _), if_neg (by simp), bind_ok e4, bind_ok e2,
    hpo, e3]
  rfl

theorem slash_ttl {s : Stream} (h : Plain s) (files : List UInt8 → Option (List UInt8)) (p : Ps) (g : Gap) (hg : g.Ok)
    (hgc : g.first.isComment = false) (l : List UInt8) (hl : NumOk l) (q : Piece) (hq : q.Ok) (r : List UInt8) :
    slash files p (s.here 47 (116 :: 116 :: 108 :: (g.text ++ (l ++ (q.text ++ r))))) = .ok (some { p with ttl := value l }, s.here (last q) r) := by
  have hd : ¬ (isDelim (last g.first).toNat = false) := by
    rcases last_delim hg.first with h | h | h | h | h <;> rw [h] <;> decide
  have e0 : readUnicode (s.here 47 (116 :: 116 :: 108 :: (g.text ++ (l ++ (q.text ++ r))))) =
      .ok (some 116, s.here 116 (116 :: 108 :: (g.text ++ (l ++ (q.text ++ r))))) := readUnicode_here h 47 116 _ (by decide) (by decide) (by decide)
  obtain ⟨j1, e1⟩ := expectAll_run h [116, 108] 116 (g.text ++ (l ++ (q.text ++ r))) (by decide)
  have e1 : expectAll [116, 108] (s.here 116 (116 :: 108 :: (g.text ++ (l ++ (q.text ++ r))))) = _ := e1
  have e2 := read_piece h g.first hg.first hgc j1 (pieces g.rest ++ (l ++ (q.text ++ r)))
  rw [slash, bind_ok e0, if_pos (by trivial), bind_ok e1, if_neg (by simp),
    show g.text ++ (l ++ (q.text ++ r)) = g.first.text ++ (pieces g.rest ++ (l ++ (q.text ++ r))) by simp [Gap.text], bind_ok e2, if_neg hd,
    bind_ok (getNat_run h g hg l hl q hq r)]
  rfl

theorem slash_origin {s : Stream} (h : Plain s) (files : List UInt8 → Option (List UInt8)) (p : Ps) (origin : Name) (ho : OriginOk origin)
    (hpo : p.origin = dotted origin) (g : Gap) (hg : g.Ok) (hgc : g.first.isComment = false) (n : NameText) (q : Piece) (hq : q.Ok)
    (hn : Body.NameOk n origin q) (r : List UInt8) :
    slash files p (s.here 47 (111 :: 114 :: 105 :: 103 :: 105 :: 110 :: (g.text ++ (n.text ++ (q.text ++ r))))) =
      .ok (some { p with origin := dotted (n.name origin) }, s.here (last q) r) := by
  have e0 : ∀ x, readUnicode (s.here 47 (111 :: x)) = .ok (some 111, s.here 111 x) := fun x => readUnicode_here h 47 111 _ (by decide) (by decide) (by decide)
  have e1 : ∀ x, readUnicode (s.here 111 (114 :: x)) = .ok (some 114, s.here 114 x) := fun x => readUnicode_here h 111 114 _ (by decide) (by decide) (by decide)
  obtain ⟨j1, e2⟩ := expectAll_run h [105, 103, 105, 110] 114 (g.text ++ (n.text ++ (q.text ++ r))) (by decide)
  have e2 : expectAll [105, 103, 105, 110] (s.here 114 (105 :: 103 :: 105 :: 110 :: (g.text ++ (n.text ++ (q.text ++ r))))) = _ := e2
  rw [slash, bind_ok (e0 _), if_neg (by decide), if_pos (by trivial), bind_ok (e1 _), if_pos (by trivial), bind_ok e2, if_neg (by simp),
    bind_ok (newOrigin_run h p origin ho hpo g hg hgc n q hq hn j1 r)]
  rfl

theorem slash_push {s : Stream} (h : Plain s) (files : List UInt8 → Option (List UInt8)) (p : Ps) (hh : p.height ≤ 7) (origin : Name)
    (ho : OriginOk origin) (hpo : p.origin = dotted origin) (g : Gap) (hg : g.Ok) (hgc : g.first.isComment = false) (n : NameText) (q : Piece)
    (hq : q.Ok) (hn : Body.NameOk n origin q) (r : List UInt8) :
    slash files p (s.here 47 (111 :: 112 :: 117 :: 115 :: 104 :: (g.text ++ (n.text ++ (q.text ++ r))))) =
      .ok (some { p with origin := dotted (n.name origin), ostack := p.origin :: p.ostack, height := p.height + 1 }, s.here (last q) r) := by
  have e0 : ∀ x, readUnicode (s.here 47 (111 :: x)) = .ok (some 111, s.here 111 x) := fun x => readUnicode_here h 47 111 _ (by decide) (by decide) (by decide)
  have e1 : ∀ x, readUnicode (s.here 111 (112 :: x)) = .ok (some 112, s.here 112 x) := fun x => readUnicode_here h 111 112 _ (by decide) (by decide) (by decide)
  have e3 : ∀ x, readUnicode (s.here 112 (117 :: x)) = .ok (some 117, s.here 117 x) := fun x => readUnicode_here h 112 117 _ (by decide) (by decide) (by decide)
  obtain ⟨j1, e2⟩ := expectAll_run h [115, 104] 117 (g.text ++ (n.text ++ (q.text ++ r))) (by decide)
  have e2 : expectAll [115, 104] (s.here 117 (115 :: 104 :: (g.text ++ (n.text ++ (q.text ++ r))))) = _ := e2
  rw [slash, bind_ok (e0 _), if_neg (by decide), if_pos (by trivial), bind_ok (e1 _), if_neg (by decide), if_pos (by trivial), bind_ok (e3 _),
    if_pos (by trivial), bind_ok e2, if_neg (by simp), bind_ok (newOrigin_run h p origin ho hpo g hg hgc n q hq hn j1 r), if_neg (by omega)]
  rfl

theorem slash_pop {s : Stream} (h : Plain s) (files : List UInt8 → Option (List UInt8)) (p : Ps) (hh : 1 ≤ p.height ∧ p.height ≤ 8)
    (o : List UInt8) (st : List (List UInt8)) (hst : p.ostack = o :: st) (q : Piece) (hq : q.Ok) (hqc : q.isComment = false) (r : List UInt8) :
    slash files p (s.here 47 (111 :: 112 :: 111 :: 112 :: (q.text ++ r))) = .ok (some { p with origin := o, ostack := st }, s.here (last q) r) := by
  have hd : ¬ (isDelim (last q).toNat = false) := by
    rcases last_delim hq with h | h | h | h | h <;> rw [h] <;> decide
  have e0 : ∀ x, readUnicode (s.here 47 (111 :: x)) = .ok (some 111, s.here 111 x) := fun x => readUnicode_here h 47 111 _ (by decide) (by decide) (by decide)
  have e1 : ∀ x, readUnicode (s.here 111 (112 :: x)) = .ok (some 112, s.here 112 x) := fun x => readUnicode_here h 111 112 _ (by decide) (by decide) (by decide)
  have e3 : ∀ x, readUnicode (s.here 112 (111 :: x)) = .ok (some 111, s.here 111 x) := fun x => readUnicode_here h 112 111 _ (by decide) (by decide) (by decide)
  obtain ⟨j1, e2⟩ := expectAll_run h [112] 111 (q.text ++ r) (by decide)
  have e2 : expectAll [112] (s.here 111 (112 :: (q.text ++ r))) = _ := e2
  rw [slash, bind_ok (e0 _), if_neg (by decide), if_pos (by trivial), bind_ok (e1 _), if_neg (by decide), if_pos (by trivial), bind_ok (e3 _),
    if_neg (by decide), if_pos (by trivial), bind_ok e2, if_neg (by simp), bind_ok (read_piece h q hq hqc j1 r), if_neg hd, if_neg (by omega), hst]
  rfl

end Csv2
end Mara
