import Verif.Mara.RcLemmas

/-!
# What a line says

`parseline` yields, of each of the statements of the manual page, exactly its parts.
-/

namespace Mara.Rc

open Spec.MaraRc

set_option hygiene false in
/-- No byte of the list is in the set. -/
local macro "clr" : tactic => `(tactic|
  (try simp only [List.forall_mem_append, List.forall_mem_cons, List.forall_mem_nil, and_true]
   (repeat' apply And.intro) <;> first
    | decide
    | (intro c hc; simp only [P1 c hc])
    | (intro c hc; simp only [P2 c hc])
    | (intro c hc; simp only [P3 c hc])
    | (intro c hc; simp only [P4 c hc])
    | (intro c hc; simp only [PN c hc])
    | (intro c hc; simp only [PG c hc])
    | (intro c hc; simp only [PV c hc])
    | (intro c hc; simp only [PK c hc])
    | (intro c hc; simp only [PT c hc])))

local macro "ln" : tactic => `(tactic| (simp only [List.append_assoc, List.cons_append,
  List.nil_append, List.append_nil] <;> try rfl))

local macro "po" : tactic => `(tactic|
  ((try simp only [List.length_append, List.length_cons, List.length_nil] at *);
   (try push_cast at *); omega))

theorem signs (a : Bool) : ∃ g : List UInt8, sign a = g ++ [61] ∧ (∀ c ∈ g,
    quote c = false ∧ equal c = false ∧ hash c = false ∧ bslash c = false ∧
    left c = false ∧ right c = false ∧ (!all c) = false ∧ an c = false ∧ digit c = false) ∧
    (a = true → g = [43]) ∧ (a = false → g = []) := by
  cases a with
  | false => exact ⟨[], rfl, by simp, by simp, by simp⟩
  | true => exact ⟨[43], rfl, by decide, by simp, by simp⟩

theorem parse_text (y : Layout) (hy : y.Ok) (n v : List UInt8) (a : Bool)
    (hs : (Stmt.text n v a).Ok) (hlen : ((Stmt.text n v a).line y).length < 256) :
    parseline ((Stmt.text n v a).line y) = .line 1 n (b "NOTHASH") v a := by
  obtain ⟨hne, hn, hv⟩ := hs
  have hn : ∀ c ∈ n, an c = true := fun c hc => word_an (List.all_eq_true.1 hn c hc)
  have P1 := pads hy.1
  have P2 := pads hy.2.1
  have P3 := pads hy.2.2.1
  have P4 := pads hy.2.2.2.1
  have PT := tails hy
  have PV := texts hv
  have PN := words hn
  obtain ⟨g, hg, PG, gt, gf⟩ := signs a
  obtain ⟨d, w, hdw⟩ := List.exists_cons_of_ne_nil hne
  have hd := hn d (by simp [hdw])
  generalize hl : (Stmt.text n v a).line y = l at *
  have hl : l = y.p1 ++ (n ++ (y.p2 ++ (g ++ (61 :: (y.p3 ++ (34 :: (v ++
      (34 :: (y.p4 ++ y.tail))))))))) := by
    rw [← hl, Stmt.line, hg]; ln
  obtain ⟨e, he⟩ : ∃ e : Int, e = y.p1.length + n.length + y.p2.length + g.length :=
    ⟨_, rfl⟩
  obtain ⟨q1, hq1⟩ : ∃ q : Int, q = e + 1 + y.p3.length := ⟨_, rfl⟩
  obtain ⟨q2, hq2⟩ : ∃ q : Int, q = q1 + 1 + v.length := ⟨_, rfl⟩
  have hL : (l.length : Int) = q2 + 1 + y.p4.length + y.tail.length := by
    rw [hl]; po
  -- the quotes
  have m1 : mt quote l 0 = q1 := mt_hit quote l [] (y.p1 ++ n ++ y.p2 ++ g ++ 61 :: y.p3)
    _ 34 0 q1 (by rw [hl]; ln) rfl (by po) (by clr) (by decide)
  have m2 : mt quote l (q1 + 1) = q2 := mt_hit quote l
    (y.p1 ++ n ++ y.p2 ++ g ++ 61 :: y.p3 ++ [34]) v _ 34 _ q2 (by rw [hl]; ln) (by po)
    (by po) (by clr) (by decide)
  have m3 : mt quote l (q2 + 1) = -2 := mt_miss quote l
    (y.p1 ++ n ++ y.p2 ++ g ++ 61 :: y.p3 ++ 34 :: v ++ [34]) (y.p4 ++ y.tail) _
    (by rw [hl]; ln) (by po) (by clr)
  have Q : quotes l = .ok ⟨q1, q2, -2, -2⟩ := by
    simp only [quotes, m1, m2, m3]
    rw [if_pos (by omega), if_pos (by omega), if_neg (by omega)]
  -- the comment
  have hh : hashAt l ⟨q1, q2, -2, -2⟩ = hashPos y l := by
    have t2 : mt hash l q2 = if y.comment = none then -2 else (l.length - y.tail.length : Int) :=
      mt_tail hash y l (y.p1 ++ n ++ y.p2 ++ g ++ 61 :: y.p3 ++ 34 :: v) (34 :: y.p4) q2
        (by rw [hl]; ln) (by po) (by clr) (by decide) (by decide)
    by_cases hv : ∃ c ∈ v, hash c = true
    · have := mt_within hash l [] (y.p1 ++ n ++ y.p2 ++ g ++ 61 :: y.p3 ++ [34]) v
        (34 :: (y.p4 ++ y.tail)) 0 (by rw [hl]; ln) rfl (by clr) hv
      simp only [hashAt, hashPos]
      have c1 : mt hash l 0 > q1 ∧ mt hash l 0 < q2 := by
        constructor <;> po
      simp only [c1, and_self, if_true, t2]
      split_ifs <;> omega
    · have PV : ∀ c ∈ v, hash c = false := by simpa using hv
      have t0 : mt hash l 0 = if y.comment = none then -2 else (l.length - y.tail.length : Int) :=
        mt_tail hash y l [] (y.p1 ++ n ++ y.p2 ++ g ++ 61 :: y.p3 ++ 34 :: v ++ 34 :: y.p4)
          0 (by rw [hl]; ln) rfl (by clr) (by decide) (by decide)
      simp only [hashAt, hashPos, t0]
      split_ifs <;> omega
  obtain ⟨h, hh'⟩ : ∃ h, h = hashPos y l := ⟨_, rfl⟩
  rw [← hh'] at hh
  have hge : h ≥ q2 + 1 := by
    rw [hh', hashPos]; split_ifs <;> omega
  have D : dropQuotes ⟨q1, q2, -2, -2⟩ h = ⟨q1, q2, -2, -2⟩ := by
    simp only [dropQuotes, if_neg (show ¬ q1 > h by omega), if_neg (show ¬ (-2 : Int) > h by omega)]
  -- odd characters
  have C : checkChars l ⟨q1, q2, -2, -2⟩ h = none := by
    have key : nm all l 0 = -2 ∨ (q1 ≤ nm all l 0 ∧ nm all l 0 ≤ q2) ∨ h ≤ nm all l 0 := by
      by_cases hv : ∃ c ∈ v, (!all c) = true
      · have := mt_within (fun c => !all c) l [] (y.p1 ++ n ++ y.p2 ++ g ++ 61 :: y.p3 ++ [34]) v
          (34 :: (y.p4 ++ y.tail)) 0 (by rw [hl]; ln) rfl (by clr) hv
        right; left; rw [nm]
        constructor <;> po
      · have PV : ∀ c ∈ v, (!all c) = false := by simpa using hv
        cases hc : y.comment with
        | none =>
          left
          have PT : ∀ c ∈ y.tail, (!all c) = false := by
            simp only [Layout.tail, hc]; decide
          exact mt_miss _ l [] l 0 rfl rfl (by rw [hl]; clr)
        | some m =>
          have := mt_after (fun c => !all c) l []
            (y.p1 ++ n ++ y.p2 ++ g ++ 61 :: y.p3 ++ 34 :: v ++ 34 :: y.p4) y.tail 0 h
            (by rw [hl]; ln) rfl
            (by rw [hh', hashPos, if_neg (by simp [hc])]; po) (by clr)
          rw [nm]; tauto
    simp only [checkChars]
    rw [if_neg (by omega), if_neg (by omega)]
  -- the equals sign
  have E : mt equal l 0 = e := mt_hit equal l [] (y.p1 ++ n ++ y.p2 ++ g) _ 61 0 e
    (by rw [hl]; ln) rfl (by po) (by clr) (by decide)
  have PL : checkPlus l e = .ok a := by
    have pe : mt plus l e = -2 := mt_miss plus l (y.p1 ++ n ++ y.p2 ++ g)
      (61 :: y.p3 ++ 34 :: v ++ 34 :: y.p4 ++ y.tail) e (by rw [hl]; ln) (by po) (by clr)
    cases a with
    | true =>
      have := gt rfl
      subst this
      have p0 : mt plus l 0 = e - 1 := mt_hit plus l [] (y.p1 ++ n ++ y.p2) _ 43 0 (e - 1)
        (by rw [hl]; ln) rfl (by po) (by clr) (by decide)
      simp [checkPlus, p0, pe]
    | false =>
      have := gf rfl
      subst this
      have p0 : mt plus l 0 = -2 := mt_miss plus l [] l 0 rfl rfl (by rw [hl]; clr)
      have : ¬ (-2 = e - 1) := by omega
      simp [checkPlus, p0, pe, this]
  -- the name
  have hnl : n.length = w.length + 1 := by rw [hdw]; rfl
  have W0 : mt an l 0 = y.p1.length := mt_hit an l [] y.p1
    (w ++ (y.p2 ++ (g ++ (61 :: (y.p3 ++ (34 :: (v ++ (34 :: (y.p4 ++ y.tail))))))))) d 0 _
    (by rw [hl, hdw]; ln) rfl (by po) (by clr) hd
  have stop : ∀ x : List UInt8, ∃ c z, y.p2 ++ (g ++ (61 :: x)) = c :: z ∧ an c = false := by
    intro x
    cases hp : y.p2 with
    | cons c z => exact ⟨c, _, rfl, by simp only [P2 c (by simp [hp])]⟩
    | nil =>
      cases hgg : g with
      | cons c z => exact ⟨c, _, rfl, by simp only [PG c (by simp [hgg])]⟩
      | nil => exact ⟨61, x, rfl, by decide⟩
  have W1 : wordEnd l y.p1.length = y.p1.length + w.length := by
    obtain ⟨c, z, hcz, hc⟩ := stop (y.p3 ++ (34 :: (v ++ (34 :: (y.p4 ++ y.tail)))))
    exact wordEnd_eq l y.p1 w z d c _ _ (by rw [hl, hdw, hcz]) rfl rfl
      (fun c hm => hn c (by simp [hdw, hm])) hc
  have F : firstWord l h = ((y.p1.length : Int), (y.p1.length + w.length : Int)) := by
    simp only [firstWord, W0, W1]
    rw [if_pos (by constructor <;> po)]
  -- no key
  have K : keyPart l ⟨q1, q2, -2, -2⟩ (y.p1.length + w.length) =
      some (.ok (b "NOTHASH", ⟨q1, q2, -2, -2⟩, 1)) := by
    have : mt left l 0 = -2 := mt_miss left l [] l 0 rfl rfl (by rw [hl]; clr)
    simp [keyPart, this]
  -- the value
  have V : valuePart l ⟨q1, q2, -2, -2⟩ h (y.p1.length + w.length) e 1 =
      .ok (q1 + 1, q2 - 1, 1) := by
    have := mt_after an l (y.p1 ++ n) (y.p2 ++ g ++ 61 :: y.p3) (34 :: (v ++ (34 :: (y.p4 ++ y.tail))))
      (y.p1.length + w.length + 1) q1 (by rw [hl]; ln) (by po) (by po) (by clr)
    simp only [valuePart]
    rw [if_pos (by constructor <;> omega), if_neg (by omega)]
  have B : mt bslash l 0 = -2 := mt_miss bslash l [] l 0 rfl rfl (by rw [hl]; clr)
  have VT : varText l y.p1.length (y.p1.length + w.length) e = some (.ok n) := by
    simp only [varText]
    rw [if_pos (by constructor <;> omega), if_neg (by omega), if_neg (by po),
      substr_eq l y.p1 n (y.p2 ++ (g ++ (61 :: (y.p3 ++ (34 :: (v ++ (34 :: (y.p4 ++ y.tail))))))))
        _ _ hl rfl (by po) (by simp) (by po)]
    rfl
  have XT : valText l ⟨q1, q2, -2, -2⟩ (q1 + 1) (q2 - 1) e = some (.ok v) := by
    simp only [valText]
    by_cases hv : v = []
    · rw [if_neg (by subst hv; po), hv]
    · have := List.length_pos_iff.2 hv
      rw [if_pos (by constructor <;> omega), if_neg (by omega), if_neg (by omega),
        substr_eq l (y.p1 ++ n ++ y.p2 ++ g ++ 61 :: y.p3 ++ [34]) v (34 :: (y.p4 ++ y.tail))
          _ _ (by rw [hl]; ln) (by po) (by po) (by simp) (by po)]
      rfl
  have R : nm rest l (q2 - 1 + 1) = -2 ∨ nm rest l (q2 - 1 + 1) = h := by
    have := mt_tail (fun c => !rest c) y l (y.p1 ++ n ++ y.p2 ++ g ++ 61 :: y.p3 ++ 34 :: v)
      (34 :: y.p4) (q2 - 1 + 1) (by rw [hl]; ln) (by po) (by clr) (by decide) (by decide)
    rw [nm, this, hh', hashPos]
    split_ifs <;> simp
  -- it is not a comment
  have h0 : nm blank l 0 = y.p1.length := mt_hit (fun c => !blank c) l [] y.p1
    (w ++ (y.p2 ++ (g ++ (61 :: (y.p3 ++ (34 :: (v ++ (34 :: (y.p4 ++ y.tail))))))))) d 0 _
    (by rw [hl, hdw]; ln) rfl (by po) (by clr) (an_nblank hd)
  have h1 : mt hash l 0 = -2 ∨ (y.p1.length : Int) + n.length ≤ mt hash l 0 := mt_after hash l []
    (y.p1 ++ n) (y.p2 ++ (g ++ (61 :: (y.p3 ++ (34 :: (v ++ (34 :: (y.p4 ++ y.tail)))))))) 0
    _ (by rw [hl]; ln) rfl (by po) (by clr)
  simp only [parseline, h0, Q, hh, D, C, E, PL, F]
  rw [if_neg (by omega), if_neg (by omega)]
  simp only [K, V, B, VT, XT]
  rw [if_neg (by simp), if_neg (by omega)]

theorem parse_number (y : Layout) (hy : y.Ok) (n v : List UInt8) (a : Bool)
    (hs : (Stmt.number n v a).Ok) (hlen : ((Stmt.number n v a).line y).length < 256) :
    parseline ((Stmt.number n v a).line y) = .line 1 n (b "NOTHASH") v a := by
  obtain ⟨hne, hn, hve, hv⟩ := hs
  have hn : ∀ c ∈ n, an c = true := fun c hc => word_an (List.all_eq_true.1 hn c hc)
  have hv' : ∀ c ∈ v, digit c = true := fun c hc => List.all_eq_true.1 hv c hc
  have hv : ∀ c ∈ v, an c = true := fun c hc => num_an (List.all_eq_true.1 hv c hc)
  have P1 := pads hy.1
  have P2 := pads hy.2.1
  have P3 := pads hy.2.2.1
  have P4 := pads hy.2.2.2.1
  have PT := tails hy
  have PV := words hv
  have PN := words hn
  obtain ⟨g, hg, PG, gt, gf⟩ := signs a
  obtain ⟨d, w, hdw⟩ := List.exists_cons_of_ne_nil hne
  have hd := hn d (by simp [hdw])
  obtain ⟨dv, wv, hdv⟩ := List.exists_cons_of_ne_nil hve
  have hd' := hv' dv (by simp [hdv])
  generalize hl : (Stmt.number n v a).line y = l at *
  have hl : l = y.p1 ++ (n ++ (y.p2 ++ (g ++ (61 :: (y.p3 ++ (v ++ (y.p4 ++ y.tail))))))) := by
    rw [← hl, Stmt.line, hg]; ln
  obtain ⟨e, he⟩ : ∃ e : Int, e = y.p1.length + n.length + y.p2.length + g.length :=
    ⟨_, rfl⟩
  obtain ⟨q1, hq1⟩ : ∃ q : Int, q = e + 1 + y.p3.length := ⟨_, rfl⟩
  have hvl : v.length = wv.length + 1 := by rw [hdv]; rfl
  obtain ⟨q2, hq2⟩ : ∃ q : Int, q = q1 + wv.length := ⟨_, rfl⟩
  have hL : (l.length : Int) = q2 + 1 + y.p4.length + y.tail.length := by
    rw [hl]; po
  -- no quotes
  have m1 : mt quote l 0 = -2 := mt_miss quote l [] l 0 rfl rfl (by rw [hl]; clr)
  have Q : quotes l = .ok ⟨-2, -2, -2, -2⟩ := by
    simp [quotes, m1]
  -- the comment
  have t0 : mt hash l 0 = if y.comment = none then -2 else (l.length - y.tail.length : Int) :=
    mt_tail hash y l [] (y.p1 ++ n ++ y.p2 ++ g ++ 61 :: y.p3 ++ v ++ y.p4)
      0 (by rw [hl]; ln) rfl (by clr) (by decide) (by decide)
  have hh : hashAt l ⟨-2, -2, -2, -2⟩ = hashPos y l := by
    simp only [hashAt, hashPos, t0]
    split_ifs <;> omega
  obtain ⟨h, hh'⟩ : ∃ h, h = hashPos y l := ⟨_, rfl⟩
  rw [← hh'] at hh
  have hge : h ≥ q2 + 1 := by
    rw [hh', hashPos]; split_ifs <;> omega
  have D : dropQuotes ⟨-2, -2, -2, -2⟩ h = ⟨-2, -2, -2, -2⟩ := by
    simp only [dropQuotes, if_neg (show ¬ (-2 : Int) > h by omega)]
  -- odd characters
  have C : checkChars l ⟨-2, -2, -2, -2⟩ h = none := by
    have key : nm all l 0 = -2 ∨ h ≤ nm all l 0 := by
      cases hc : y.comment with
      | none =>
        left
        have PT : ∀ c ∈ y.tail, (!all c) = false := by
          simp only [Layout.tail, hc]; decide
        exact mt_miss _ l [] l 0 rfl rfl (by rw [hl]; clr)
      | some m =>
        have := mt_after (fun c => !all c) l []
          (y.p1 ++ n ++ y.p2 ++ g ++ 61 :: y.p3 ++ v ++ y.p4) y.tail 0 h
          (by rw [hl]; ln) rfl
          (by rw [hh', hashPos, if_neg (by simp [hc])]; po) (by clr)
        rw [nm]; tauto
    simp only [checkChars]
    rw [if_neg (by omega), if_neg (by omega)]
  -- the equals sign
  have E : mt equal l 0 = e := mt_hit equal l [] (y.p1 ++ n ++ y.p2 ++ g) _ 61 0 e
    (by rw [hl]; ln) rfl (by po) (by clr) (by decide)
  have PL : checkPlus l e = .ok a := by
    have pe : mt plus l e = -2 := mt_miss plus l (y.p1 ++ n ++ y.p2 ++ g)
      (61 :: y.p3 ++ v ++ y.p4 ++ y.tail) e (by rw [hl]; ln) (by po) (by clr)
    cases a with
    | true =>
      have := gt rfl
      subst this
      have p0 : mt plus l 0 = e - 1 := mt_hit plus l [] (y.p1 ++ n ++ y.p2) _ 43 0 (e - 1)
        (by rw [hl]; ln) rfl (by po) (by clr) (by decide)
      simp [checkPlus, p0, pe]
    | false =>
      have := gf rfl
      subst this
      have p0 : mt plus l 0 = -2 := mt_miss plus l [] l 0 rfl rfl (by rw [hl]; clr)
      have : ¬ (-2 = e - 1) := by omega
      simp [checkPlus, p0, pe, this]
  -- the name
  have hnl : n.length = w.length + 1 := by rw [hdw]; rfl
  have W0 : mt an l 0 = y.p1.length := mt_hit an l [] y.p1
    (w ++ (y.p2 ++ (g ++ (61 :: (y.p3 ++ (v ++ (y.p4 ++ y.tail))))))) d 0 _
    (by rw [hl, hdw]; ln) rfl (by po) (by clr) hd
  have stop : ∀ x : List UInt8, ∃ c z, y.p2 ++ (g ++ (61 :: x)) = c :: z ∧ an c = false := by
    intro x
    cases hp : y.p2 with
    | cons c z => exact ⟨c, _, rfl, by simp only [P2 c (by simp [hp])]⟩
    | nil =>
      cases hgg : g with
      | cons c z => exact ⟨c, _, rfl, by simp only [PG c (by simp [hgg])]⟩
      | nil => exact ⟨61, x, rfl, by decide⟩
  have W1 : wordEnd l y.p1.length = y.p1.length + w.length := by
    obtain ⟨c, z, hcz, hc⟩ := stop (y.p3 ++ (v ++ (y.p4 ++ y.tail)))
    exact wordEnd_eq l y.p1 w z d c _ _ (by rw [hl, hdw, hcz]) rfl rfl
      (fun c hm => hn c (by simp [hdw, hm])) hc
  have F : firstWord l h = ((y.p1.length : Int), (y.p1.length + w.length : Int)) := by
    simp only [firstWord, W0, W1]
    rw [if_pos (by constructor <;> po)]
  -- no key
  have K : keyPart l ⟨-2, -2, -2, -2⟩ (y.p1.length + w.length) =
      some (.ok (b "NOTHASH", ⟨-2, -2, -2, -2⟩, 1)) := by
    have : mt left l 0 = -2 := mt_miss left l [] l 0 rfl rfl (by rw [hl]; clr)
    simp [keyPart, this]
  -- the value
  have V0 : mt digit l e = q1 := mt_hit digit l (y.p1 ++ n ++ y.p2 ++ g) (61 :: y.p3)
    (wv ++ (y.p4 ++ y.tail)) dv _ _ (by rw [hl, hdv]; ln) (by po) (by po) (by clr) hd'
  have V1 : wordEnd l q1 = q2 := by
    have : ∃ c z, y.p4 ++ y.tail = c :: z ∧ an c = false := by
      cases hp : y.p4 with
      | cons c z => exact ⟨c, _, rfl, by simp only [P4 c (by simp [hp])]⟩
      | nil => simpa using tail_cons y
    obtain ⟨c, z, hcz, hc⟩ := this
    exact wordEnd_eq l (y.p1 ++ n ++ y.p2 ++ g ++ 61 :: y.p3) wv z dv c _ _
      (by rw [hl, hdv, hcz]; ln) (by po) (by po)
      (fun c hm => hv c (by simp [hdv, hm])) hc
  have V : valuePart l ⟨-2, -2, -2, -2⟩ h (y.p1.length + w.length) e 1 = .ok (q1, q2, 1) := by
    simp only [valuePart, V0, V1]
    rw [if_neg (by omega), if_neg (by omega), if_pos (by omega)]
  have B : mt bslash l 0 = -2 := mt_miss bslash l [] l 0 rfl rfl (by rw [hl]; clr)
  have VT : varText l y.p1.length (y.p1.length + w.length) e = some (.ok n) := by
    simp only [varText]
    rw [if_pos (by constructor <;> omega), if_neg (by omega), if_neg (by po),
      substr_eq l y.p1 n (y.p2 ++ (g ++ (61 :: (y.p3 ++ (v ++ (y.p4 ++ y.tail))))))
        _ _ hl rfl (by po) (by simp) (by po)]
    rfl
  have XT : valText l ⟨-2, -2, -2, -2⟩ q1 q2 e = some (.ok v) := by
    simp only [valText]
    obtain ⟨c, x, ht, -⟩ := tail_cons y
    rw [if_pos (by constructor <;> omega), if_neg (by omega), if_neg (by omega),
      substr_eq l (y.p1 ++ n ++ y.p2 ++ g ++ 61 :: y.p3) v (y.p4 ++ y.tail)
        _ _ (by rw [hl]; ln) (by po) (by po) (by simp [ht]) (by po)]
    rfl
  have R : nm rest l (q2 + 1) = -2 ∨ nm rest l (q2 + 1) = h := by
    have := mt_tail (fun c => !rest c) y l (y.p1 ++ n ++ y.p2 ++ g ++ 61 :: y.p3 ++ v)
      y.p4 (q2 + 1) (by rw [hl]; ln) (by po) (by clr) (by decide) (by decide)
    rw [nm, this, hh', hashPos]
    split_ifs <;> simp
  -- it is not a comment
  have h0 : nm blank l 0 = y.p1.length := mt_hit (fun c => !blank c) l [] y.p1
    (w ++ (y.p2 ++ (g ++ (61 :: (y.p3 ++ (v ++ (y.p4 ++ y.tail))))))) d 0 _
    (by rw [hl, hdw]; ln) rfl (by po) (by clr) (an_nblank hd)
  have h1 : mt hash l 0 = -2 ∨ (y.p1.length : Int) + n.length ≤ mt hash l 0 := mt_after hash l []
    (y.p1 ++ n) (y.p2 ++ (g ++ (61 :: (y.p3 ++ (v ++ (y.p4 ++ y.tail)))))) 0
    _ (by rw [hl]; ln) rfl (by po) (by clr)
  simp only [parseline, h0, Q, hh, D, C, E, PL, F]
  rw [if_neg (by omega), if_neg (by omega)]
  simp only [K, V, B, VT, XT]
  rw [if_neg (by simp), if_neg (by omega)]

theorem parse_dict (y : Layout) (hy : y.Ok) (n : List UInt8)
    (hs : (Stmt.dict n).Ok) (hlen : ((Stmt.dict n).line y).length < 256) :
    parseline ((Stmt.dict n).line y) = .line 3 n (b "NOTHASH") [] false := by
  obtain ⟨hne, hn⟩ := hs
  have hn : ∀ c ∈ n, an c = true := fun c hc => word_an (List.all_eq_true.1 hn c hc)
  have P1 := pads hy.1
  have P2 := pads hy.2.1
  have P3 := pads hy.2.2.1
  have P4 := pads hy.2.2.2.1
  have PT := tails hy
  have PN := words hn
  obtain ⟨d, w, hdw⟩ := List.exists_cons_of_ne_nil hne
  have hd := hn d (by simp [hdw])
  generalize hl : (Stmt.dict n).line y = l at *
  have hl : l = y.p1 ++ (n ++ (y.p2 ++ ((61 :: (y.p3 ++ (123 :: 125 :: (y.p4 ++ y.tail))))))) := by
    rw [← hl, Stmt.line]; ln
  obtain ⟨e, he⟩ : ∃ e : Int, e = y.p1.length + n.length + y.p2.length :=
    ⟨_, rfl⟩
  obtain ⟨q1, hq1⟩ : ∃ q : Int, q = e + 1 + y.p3.length := ⟨_, rfl⟩
  obtain ⟨q2, hq2⟩ : ∃ q : Int, q = q1 + 1 := ⟨_, rfl⟩
  have hL : (l.length : Int) = q2 + 1 + y.p4.length + y.tail.length := by
    rw [hl]; po
  -- no quotes
  have m1 : mt quote l 0 = -2 := mt_miss quote l [] l 0 rfl rfl (by rw [hl]; clr)
  have Q : quotes l = .ok ⟨-2, -2, -2, -2⟩ := by
    simp [quotes, m1]
  -- the comment
  have t0 : mt hash l 0 = if y.comment = none then -2 else (l.length - y.tail.length : Int) :=
    mt_tail hash y l [] (y.p1 ++ n ++ y.p2 ++ 61 :: y.p3 ++ 123 :: 125 :: y.p4)
      0 (by rw [hl]; ln) rfl (by clr) (by decide) (by decide)
  have hh : hashAt l ⟨-2, -2, -2, -2⟩ = hashPos y l := by
    simp only [hashAt, hashPos, t0]
    split_ifs <;> omega
  obtain ⟨h, hh'⟩ : ∃ h, h = hashPos y l := ⟨_, rfl⟩
  rw [← hh'] at hh
  have hge : h ≥ q2 + 1 := by
    rw [hh', hashPos]; split_ifs <;> omega
  have D : dropQuotes ⟨-2, -2, -2, -2⟩ h = ⟨-2, -2, -2, -2⟩ := by
    simp only [dropQuotes, if_neg (show ¬ (-2 : Int) > h by omega)]
  -- odd characters
  have C : checkChars l ⟨-2, -2, -2, -2⟩ h = none := by
    have key : nm all l 0 = -2 ∨ h ≤ nm all l 0 := by
      cases hc : y.comment with
      | none =>
        left
        have PT : ∀ c ∈ y.tail, (!all c) = false := by
          simp only [Layout.tail, hc]; decide
        exact mt_miss _ l [] l 0 rfl rfl (by rw [hl]; clr)
      | some m =>
        have := mt_after (fun c => !all c) l []
          (y.p1 ++ n ++ y.p2 ++ 61 :: y.p3 ++ 123 :: 125 :: y.p4) y.tail 0 h
          (by rw [hl]; ln) rfl
          (by rw [hh', hashPos, if_neg (by simp [hc])]; po) (by clr)
        rw [nm]; tauto
    simp only [checkChars]
    rw [if_neg (by omega), if_neg (by omega)]
  -- the equals sign
  have E : mt equal l 0 = e := mt_hit equal l [] (y.p1 ++ n ++ y.p2) _ 61 0 e
    (by rw [hl]; ln) rfl (by po) (by clr) (by decide)
  have PL : checkPlus l e = .ok false := by
    have pe : mt plus l e = -2 := mt_miss plus l (y.p1 ++ n ++ y.p2)
      (61 :: y.p3 ++ 123 :: 125 :: y.p4 ++ y.tail) e (by rw [hl]; ln) (by po) (by clr)
    have p0 : mt plus l 0 = -2 := mt_miss plus l [] l 0 rfl rfl (by rw [hl]; clr)
    have : ¬ (-2 = e - 1) := by omega
    simp [checkPlus, p0, pe, this]
  -- the name
  have hnl : n.length = w.length + 1 := by rw [hdw]; rfl
  have W0 : mt an l 0 = y.p1.length := mt_hit an l [] y.p1
    (w ++ (y.p2 ++ ((61 :: (y.p3 ++ (123 :: 125 :: (y.p4 ++ y.tail))))))) d 0 _
    (by rw [hl, hdw]; ln) rfl (by po) (by clr) hd
  have stop : ∀ x : List UInt8, ∃ c z, y.p2 ++ ((61 :: x)) = c :: z ∧ an c = false := by
    intro x
    cases hp : y.p2 with
    | cons c z => exact ⟨c, _, rfl, by simp only [P2 c (by simp [hp])]⟩
    | nil => exact ⟨61, x, rfl, by decide⟩
  have W1 : wordEnd l y.p1.length = y.p1.length + w.length := by
    obtain ⟨c, z, hcz, hc⟩ := stop (y.p3 ++ (123 :: 125 :: (y.p4 ++ y.tail)))
    exact wordEnd_eq l y.p1 w z d c _ _ (by rw [hl, hdw, hcz]) rfl rfl
      (fun c hm => hn c (by simp [hdw, hm])) hc
  have F : firstWord l h = ((y.p1.length : Int), (y.p1.length + w.length : Int)) := by
    simp only [firstWord, W0, W1]
    rw [if_pos (by constructor <;> po)]
  -- no key
  have K : keyPart l ⟨-2, -2, -2, -2⟩ (y.p1.length + w.length) =
      some (.ok (b "NOTHASH", ⟨-2, -2, -2, -2⟩, 1)) := by
    have : mt left l 0 = -2 := mt_miss left l [] l 0 rfl rfl (by rw [hl]; clr)
    simp [keyPart, this]
  -- the braces
  obtain ⟨s, hs⟩ : ∃ s, s = mt digit l e := ⟨_, rfl⟩
  have V0 : s = -2 ∨ h ≤ s := by
    rw [hs]
    cases hc : y.comment with
    | none =>
      left
      have PT : ∀ c ∈ y.tail, digit c = false := by
        simp only [Layout.tail, hc]; decide
      exact mt_miss _ l (y.p1 ++ n ++ y.p2) (61 :: y.p3 ++ 123 :: 125 :: y.p4 ++ y.tail) e
        (by rw [hl]; ln) (by po) (by clr)
    | some m =>
      exact mt_after digit l (y.p1 ++ n ++ y.p2)
        (61 :: y.p3 ++ 123 :: 125 :: y.p4) y.tail e h (by rw [hl]; ln) (by po)
        (by rw [hh', hashPos, if_neg (by simp [hc])]; po) (by clr)
  have V1 : mt cleft l e = q1 := mt_hit cleft l (y.p1 ++ n ++ y.p2) (61 :: y.p3)
    (125 :: (y.p4 ++ y.tail)) 123 _ _ (by rw [hl]; ln) (by po) (by po) (by clr) (by decide)
  have V2 : mt cright l 0 = q1 + 1 := mt_hit cright l [] (y.p1 ++ n ++ y.p2 ++ 61 :: y.p3 ++ [123])
    (y.p4 ++ y.tail) 125 _ _ (by rw [hl]; ln) rfl (by po) (by clr) (by decide)
  have V : valuePart l ⟨-2, -2, -2, -2⟩ h (y.p1.length + w.length) e 1 = .ok (s, -2, 3) := by
    simp only [valuePart, ← hs, V1, V2]
    rw [if_neg (by omega), if_neg (by omega), if_neg (by omega), if_pos (by omega),
      if_neg (by omega)]
    rfl
  have B : mt bslash l 0 = -2 := mt_miss bslash l [] l 0 rfl rfl (by rw [hl]; clr)
  have VT : varText l y.p1.length (y.p1.length + w.length) e = some (.ok n) := by
    simp only [varText]
    rw [if_pos (by constructor <;> omega), if_neg (by omega), if_neg (by po),
      substr_eq l y.p1 n (y.p2 ++ ((61 :: (y.p3 ++ (123 :: 125 :: (y.p4 ++ y.tail))))))
        _ _ hl rfl (by po) (by simp) (by po)]
    rfl
  have XT : valText l ⟨-2, -2, -2, -2⟩ s (-2) e = some (.ok []) := by
    simp only [valText]
    rw [if_neg (by omega)]
  have R : nm rest l (-2 + 1) = -2 := by
    obtain ⟨x, hx⟩ : ∃ x, y.tail = x ++ [10] := by
      cases hc : y.comment with
      | none => exact ⟨[], by simp [Layout.tail, hc]⟩
      | some m => exact ⟨35 :: m, by simp [Layout.tail, hc]⟩
    obtain ⟨z, hz⟩ : ∃ z, l = z ++ [10] :=
      ⟨y.p1 ++ n ++ y.p2 ++ 61 :: y.p3 ++ 123 :: 125 :: y.p4 ++ x, by rw [hl, hx]; ln⟩
    have : mt (fun c => !rest c) l (-2 + 1) = mt (fun c => !rest c) l (z.length) := by
      have h1 : ¬ ((z.length : Int) < 0) := by omega
      have h2 : (l.length : Int) + (-2 + 1) = z.length := by rw [hz]; po
      have h3 : (-2 + 1 : Int) < 0 := by omega
      simp only [mt, if_pos h3, h2, if_neg h1]
    rw [nm, this]
    exact mt_miss _ l z [10] _ hz rfl (by decide)
  -- it is not a comment
  have h0 : nm blank l 0 = y.p1.length := mt_hit (fun c => !blank c) l [] y.p1
    (w ++ (y.p2 ++ ((61 :: (y.p3 ++ (123 :: 125 :: (y.p4 ++ y.tail))))))) d 0 _
    (by rw [hl, hdw]; ln) rfl (by po) (by clr) (an_nblank hd)
  have h1 : mt hash l 0 = -2 ∨ (y.p1.length : Int) + n.length ≤ mt hash l 0 := mt_after hash l []
    (y.p1 ++ n) (y.p2 ++ ((61 :: (y.p3 ++ (123 :: 125 :: (y.p4 ++ y.tail)))))) 0
    _ (by rw [hl]; ln) rfl (by po) (by clr)
  simp only [parseline, h0, Q, hh, D, C, E, PL, F]
  rw [if_neg (by omega), if_neg (by omega)]
  simp only [K, V, B, VT, XT]
  rw [if_neg (by simp), if_neg (by omega)]

theorem parse_entry (y : Layout) (hy : y.Ok) (n k v : List UInt8) (a : Bool)
    (hs : (Stmt.entry n k v a).Ok) (hlen : ((Stmt.entry n k v a).line y).length < 256) :
    parseline ((Stmt.entry n k v a).line y) = .line 2 n k v a := by
  obtain ⟨hne, hn, hk, hv⟩ := hs
  have hn : ∀ c ∈ n, an c = true := fun c hc => word_an (List.all_eq_true.1 hn c hc)
  have P1 := pads hy.1
  have P2 := pads hy.2.1
  have P3 := pads hy.2.2.1
  have P4 := pads hy.2.2.2.1
  have PT := tails hy
  have PV := texts hv
  have PK := keys hk
  have PN := words hn
  obtain ⟨g, hg, PG, gt, gf⟩ := signs a
  obtain ⟨d, w, hdw⟩ := List.exists_cons_of_ne_nil hne
  have hd := hn d (by simp [hdw])
  generalize hl : (Stmt.entry n k v a).line y = l at *
  have hl : l = y.p1 ++ (n ++ (91 :: 34 :: (k ++ (34 :: 93 :: (y.p2 ++ (g ++ (61 :: (y.p3 ++ (34 :: (v ++ (34 :: (y.p4 ++ y.tail)))))))))))) := by
    rw [← hl, Stmt.line, hg]; ln
  obtain ⟨q1, hq1⟩ : ∃ q : Int, q = y.p1.length + n.length + 1 := ⟨_, rfl⟩
  obtain ⟨q2, hq2⟩ : ∃ q : Int, q = q1 + 1 + k.length := ⟨_, rfl⟩
  obtain ⟨e, he⟩ : ∃ e : Int, e = q2 + 2 + y.p2.length + g.length := ⟨_, rfl⟩
  obtain ⟨q3, hq3⟩ : ∃ q : Int, q = e + 1 + y.p3.length := ⟨_, rfl⟩
  obtain ⟨q4, hq4⟩ : ∃ q : Int, q = q3 + 1 + v.length := ⟨_, rfl⟩
  have hL : (l.length : Int) = q4 + 1 + y.p4.length + y.tail.length := by
    rw [hl]; po
  -- the quotes
  have m1 : mt quote l 0 = q1 := mt_hit quote l [] (y.p1 ++ n ++ [91])
    _ 34 0 q1 (by rw [hl]; ln) rfl (by po) (by clr) (by decide)
  have m2 : mt quote l (q1 + 1) = q2 := mt_hit quote l
    (y.p1 ++ n ++ [91, 34]) k _ 34 _ q2 (by rw [hl]; ln) (by po)
    (by po) (by clr) (by decide)
  have m3 : mt quote l (q2 + 1) = q3 := mt_hit quote l
    (y.p1 ++ n ++ 91 :: 34 :: k ++ [34]) (93 :: y.p2 ++ g ++ 61 :: y.p3) _ 34 _ q3
    (by rw [hl]; ln) (by po) (by po) (by clr) (by decide)
  have m4 : mt quote l (q3 + 1) = q4 := mt_hit quote l
    (y.p1 ++ n ++ 91 :: 34 :: k ++ 34 :: 93 :: y.p2 ++ g ++ 61 :: y.p3 ++ [34]) v _ 34 _ q4 (by rw [hl]; ln) (by po) (by po) (by clr) (by decide)
  have m5 : mt quote l (q4 + 1) = -2 := mt_miss quote l
    (y.p1 ++ n ++ 91 :: 34 :: k ++ 34 :: 93 :: y.p2 ++ g ++ 61 :: y.p3 ++ 34 :: v ++ [34]) (y.p4 ++ y.tail) _
    (by rw [hl]; ln) (by po) (by clr)
  have Q : quotes l = .ok ⟨q1, q2, q3, q4⟩ := by
    simp only [quotes, m1, m2, m3, m4]
    rw [if_pos (by omega), if_pos (by omega), if_pos (by omega), if_neg (by omega)]
  -- the comment
  have hh : hashAt l ⟨q1, q2, q3, q4⟩ = hashPos y l := by
    have t4 : mt hash l q4 = if y.comment = none then -2 else (l.length - y.tail.length : Int) :=
      mt_tail hash y l (y.p1 ++ n ++ 91 :: 34 :: k ++ 34 :: 93 :: y.p2 ++ g ++ 61 :: y.p3 ++ 34 :: v) (34 :: y.p4) q4
        (by rw [hl]; ln) (by po) (by clr) (by decide) (by decide)
    by_cases hk : ∃ c ∈ k, hash c = true
    · have := mt_within hash l [] (y.p1 ++ n ++ [91, 34]) k
        (34 :: 93 :: (y.p2 ++ (g ++ (61 :: (y.p3 ++ (34 :: (v ++ (34 :: (y.p4 ++ y.tail))))))))) 0 (by rw [hl]; ln) rfl (by clr) hk
      have c1 : mt hash l 0 > q1 ∧ mt hash l 0 < q2 := by
        constructor <;> po
      by_cases hv : ∃ c ∈ v, hash c = true
      · have := mt_within hash l (y.p1 ++ n ++ 91 :: 34 :: k)
          (34 :: 93 :: y.p2 ++ g ++ 61 :: y.p3 ++ [34]) v
          (34 :: (y.p4 ++ y.tail)) q2 (by rw [hl]; ln) (by po) (by clr) hv
        have c2 : mt hash l q2 > q3 ∧ mt hash l q2 < q4 := by
          constructor <;> po
        simp only [hashAt, hashPos, c1, and_self, if_true, c2, t4]
        split_ifs <;> omega
      · have PV : ∀ c ∈ v, hash c = false := by simpa using hv
        have t2 : mt hash l q2 =
            if y.comment = none then -2 else (l.length - y.tail.length : Int) :=
          mt_tail hash y l (y.p1 ++ n ++ 91 :: 34 :: k)
            (34 :: 93 :: y.p2 ++ g ++ 61 :: y.p3 ++ 34 :: v ++ 34 :: y.p4) q2
            (by rw [hl]; ln) (by po) (by clr) (by decide) (by decide)
        simp only [hashAt, hashPos, c1, and_self, if_true, t2]
        split_ifs <;> omega
    · have PK : ∀ c ∈ k, hash c = false := by simpa using hk
      by_cases hv : ∃ c ∈ v, hash c = true
      · have := mt_within hash l [] (y.p1 ++ n ++ 91 :: 34 :: k ++ 34 :: 93 :: y.p2 ++ g ++ 61 :: y.p3 ++ [34]) v
          (34 :: (y.p4 ++ y.tail)) 0 (by rw [hl]; ln) rfl (by clr) hv
        have c1 : ¬ (mt hash l 0 > q1 ∧ mt hash l 0 < q2) := by
          intro c1; po
        have c2 : mt hash l 0 > q3 ∧ mt hash l 0 < q4 := by
          constructor <;> po
        simp only [hashAt, hashPos, if_neg c1, if_pos c2, t4]
        split_ifs <;> omega
      · have PV : ∀ c ∈ v, hash c = false := by simpa using hv
        have t0 : mt hash l 0 =
            if y.comment = none then -2 else (l.length - y.tail.length : Int) :=
          mt_tail hash y l [] (y.p1 ++ n ++ 91 :: 34 :: k ++ 34 :: 93 :: y.p2 ++ g ++ 61 :: y.p3 ++ 34 :: v ++ 34 :: y.p4)
            0 (by rw [hl]; ln) rfl (by clr) (by decide) (by decide)
        simp only [hashAt, hashPos, t0]
        split_ifs <;> omega
  obtain ⟨h, hh'⟩ : ∃ h, h = hashPos y l := ⟨_, rfl⟩
  rw [← hh'] at hh
  have hge : h ≥ q4 + 1 := by
    rw [hh', hashPos]; split_ifs <;> omega
  have D : dropQuotes ⟨q1, q2, q3, q4⟩ h = ⟨q1, q2, q3, q4⟩ := by
    simp only [dropQuotes, if_neg (show ¬ q1 > h by omega), if_neg (show ¬ q3 > h by omega)]
  -- odd characters
  have C : checkChars l ⟨q1, q2, q3, q4⟩ h = none := by
    have key : nm all l 0 = -2 ∨ (q1 ≤ nm all l 0 ∧ nm all l 0 ≤ q2) ∨
        (q3 ≤ nm all l 0 ∧ nm all l 0 ≤ q4) ∨ h ≤ nm all l 0 := by
      by_cases hk : ∃ c ∈ k, (!all c) = true
      · have := mt_within (fun c => !all c) l [] (y.p1 ++ n ++ [91, 34]) k
          (34 :: 93 :: (y.p2 ++ (g ++ (61 :: (y.p3 ++ (34 :: (v ++ (34 :: (y.p4 ++ y.tail))))))))) 0 (by rw [hl]; ln) rfl (by clr) hk
        right; left; rw [nm]
        constructor <;> po
      have PK : ∀ c ∈ k, (!all c) = false := by simpa using hk
      by_cases hv : ∃ c ∈ v, (!all c) = true
      · have := mt_within (fun c => !all c) l [] (y.p1 ++ n ++ 91 :: 34 :: k ++ 34 :: 93 :: y.p2 ++ g ++ 61 :: y.p3 ++ [34]) v
          (34 :: (y.p4 ++ y.tail)) 0 (by rw [hl]; ln) rfl (by clr) hv
        right; right; left; rw [nm]
        constructor <;> po
      · have PV : ∀ c ∈ v, (!all c) = false := by simpa using hv
        cases hc : y.comment with
        | none =>
          left
          have PT : ∀ c ∈ y.tail, (!all c) = false := by
            simp only [Layout.tail, hc]; decide
          exact mt_miss _ l [] l 0 rfl rfl (by rw [hl]; clr)
        | some m =>
          have := mt_after (fun c => !all c) l []
            (y.p1 ++ n ++ 91 :: 34 :: k ++ 34 :: 93 :: y.p2 ++ g ++ 61 :: y.p3 ++ 34 :: v ++ 34 :: y.p4) y.tail 0 h
            (by rw [hl]; ln) rfl
            (by rw [hh', hashPos, if_neg (by simp [hc])]; po) (by clr)
          rw [nm]; tauto
    simp only [checkChars, m5]
    rw [if_neg (by omega), if_neg (by simp)]
  -- the equals sign
  have E : mt equal l 0 = e := mt_hit equal l [] (y.p1 ++ n ++ 91 :: 34 :: k ++ 34 :: 93 :: y.p2 ++ g) _ 61 0 e
    (by rw [hl]; ln) rfl (by po) (by clr) (by decide)
  have PL : checkPlus l e = .ok a := by
    have pe : mt plus l e = -2 := mt_miss plus l (y.p1 ++ n ++ 91 :: 34 :: k ++ 34 :: 93 :: y.p2 ++ g)
      (61 :: y.p3 ++ 34 :: v ++ 34 :: y.p4 ++ y.tail) e (by rw [hl]; ln) (by po) (by clr)
    cases a with
    | true =>
      have := gt rfl
      subst this
      have p0 : mt plus l 0 = e - 1 := mt_hit plus l []
        (y.p1 ++ n ++ 91 :: 34 :: k ++ 34 :: 93 :: y.p2) _ 43 0 (e - 1)
        (by rw [hl]; ln) rfl (by po) (by clr) (by decide)
      simp [checkPlus, p0, pe]
    | false =>
      have := gf rfl
      subst this
      have p0 : mt plus l 0 = -2 := mt_miss plus l [] l 0 rfl rfl (by rw [hl]; clr)
      have : ¬ (-2 = e - 1) := by omega
      simp [checkPlus, p0, pe, this]
  -- the name
  have hnl : n.length = w.length + 1 := by rw [hdw]; rfl
  have W0 : mt an l 0 = y.p1.length := mt_hit an l [] y.p1
    (w ++ (91 :: 34 :: (k ++ (34 :: 93 :: (y.p2 ++ (g ++ (61 :: (y.p3 ++ (34 :: (v ++ (34 :: (y.p4 ++ y.tail)))))))))))) d 0 _
    (by rw [hl, hdw]; ln) rfl (by po) (by clr) hd
  have W1 : wordEnd l y.p1.length = y.p1.length + w.length :=
    wordEnd_eq l y.p1 w (34 :: (k ++ (34 :: 93 :: (y.p2 ++ (g ++ (61 :: (y.p3 ++ (34 :: (v ++ (34 :: (y.p4 ++ y.tail))))))))))) d 91 _ _ (by rw [hl, hdw]) rfl rfl
      (fun c hm => hn c (by simp [hdw, hm])) (by decide)
  have F : firstWord l h = ((y.p1.length : Int), (y.p1.length + w.length : Int)) := by
    simp only [firstWord, W0, W1]
    rw [if_pos (by constructor <;> po)]
  -- the key
  have K : keyPart l ⟨q1, q2, q3, q4⟩ (y.p1.length + w.length) =
      some (.ok (k, ⟨q3, q4, -2, -2⟩, 2)) := by
    have k0 : mt left l 0 = q1 - 1 := mt_hit left l [] (y.p1 ++ n) _ 91 0 _
      (by rw [hl]; ln) rfl (by po) (by clr) (by decide)
    have k1 : mt left l (q1 - 1 + 1) = -2 := mt_miss left l (y.p1 ++ n ++ [91])
      (34 :: k ++ 34 :: 93 :: y.p2 ++ g ++ 61 :: y.p3 ++ 34 :: v ++ 34 :: y.p4 ++ y.tail) _
      (by rw [hl]; ln) (by po) (by clr)
    have k2 : mt right l 0 = q2 + 1 := mt_hit right l [] (y.p1 ++ n ++ 91 :: 34 :: k ++ [34]) _
      93 0 _ (by rw [hl]; ln) rfl (by po) (by clr) (by decide)
    have k3 : substr l (q1 + 1) (q2 - q1 - 1) = some k :=
      substr_eq l (y.p1 ++ n ++ [91, 34]) k (34 :: 93 :: (y.p2 ++ (g ++ (61 :: (y.p3 ++ (34 :: (v ++ (34 :: (y.p4 ++ y.tail))))))))) _ _
        (by rw [hl]; ln) (by po) (by po) (by simp) (by po)
    simp only [keyPart, k0, k1, k2, k3]
    rw [if_pos (by omega), if_neg (by omega), if_neg (by omega), if_neg (by simp),
      if_neg (by simp)]
  -- the value
  have V : valuePart l ⟨q3, q4, -2, -2⟩ h (y.p1.length + w.length) e 2 =
      .ok (q3 + 1, q4 - 1, 2) := by
    simp only [valuePart]
    rw [if_pos (by constructor <;> omega), if_neg (by simp)]
  have B : mt bslash l 0 = -2 := mt_miss bslash l [] l 0 rfl rfl (by rw [hl]; clr)
  have VT : varText l y.p1.length (y.p1.length + w.length) e = some (.ok n) := by
    simp only [varText]
    rw [if_pos (by constructor <;> omega), if_neg (by omega), if_neg (by po),
      substr_eq l y.p1 n (91 :: 34 :: (k ++ (34 :: 93 :: (y.p2 ++ (g ++ (61 :: (y.p3 ++ (34 :: (v ++ (34 :: (y.p4 ++ y.tail)))))))))))
        _ _ hl rfl (by po) (by simp) (by po)]
    rfl
  have XT : valText l ⟨q3, q4, -2, -2⟩ (q3 + 1) (q4 - 1) e = some (.ok v) := by
    simp only [valText]
    by_cases hv : v = []
    · rw [if_neg (by subst hv; po), hv]
    · have := List.length_pos_iff.2 hv
      rw [if_pos (by constructor <;> omega), if_neg (by omega), if_neg (by omega),
        substr_eq l (y.p1 ++ n ++ 91 :: 34 :: k ++ 34 :: 93 :: y.p2 ++ g ++ 61 :: y.p3 ++ [34]) v (34 :: (y.p4 ++ y.tail))
          _ _ (by rw [hl]; ln) (by po) (by po) (by simp) (by po)]
      rfl
  have R : nm rest l (q4 - 1 + 1) = -2 ∨ nm rest l (q4 - 1 + 1) = h := by
    have := mt_tail (fun c => !rest c) y l (y.p1 ++ n ++ 91 :: 34 :: k ++ 34 :: 93 :: y.p2 ++ g ++ 61 :: y.p3 ++ 34 :: v)
      (34 :: y.p4) (q4 - 1 + 1) (by rw [hl]; ln) (by po) (by clr) (by decide) (by decide)
    rw [nm, this, hh', hashPos]
    split_ifs <;> simp
  -- it is not a comment
  have h0 : nm blank l 0 = y.p1.length := mt_hit (fun c => !blank c) l [] y.p1
    (w ++ (91 :: 34 :: (k ++ (34 :: 93 :: (y.p2 ++ (g ++ (61 :: (y.p3 ++ (34 :: (v ++ (34 :: (y.p4 ++ y.tail)))))))))))) d 0 _
    (by rw [hl, hdw]; ln) rfl (by po) (by clr) (an_nblank hd)
  have h1 : mt hash l 0 = -2 ∨ (y.p1.length : Int) + n.length ≤ mt hash l 0 := mt_after hash l []
    (y.p1 ++ n) (91 :: 34 :: (k ++ (34 :: 93 :: (y.p2 ++ (g ++ (61 :: (y.p3 ++ (34 :: (v ++ (34 :: (y.p4 ++ y.tail))))))))))) 0
    _ (by rw [hl]; ln) rfl (by po) (by clr)
  simp only [parseline, h0, Q, hh, D, C, E, PL, F]
  rw [if_neg (by omega), if_neg (by omega)]
  simp only [K, V, B, VT, XT]
  rw [if_neg (by simp), if_neg (by omega)]

/-- A blank line, or one with nothing but a comment. -/
theorem parse_note (y : Layout) (hy : y.Ok) :
    parseline (Stmt.note.line y) = .line 1 [] (b "NOTHASH") [] false := by
  have P1 := pads hy.1
  have h0 : mt hash (Stmt.note.line y) 0 = _ := mt_tail hash y (Stmt.note.line y) [] y.p1 0 rfl
    rfl (by clr) (by decide) (by decide)
  have h1 : nm blank (Stmt.note.line y) 0 = _ := mt_tail (fun c => !blank c) y
    (Stmt.note.line y) [] y.p1 0 rfl rfl (by clr) (by decide) (by decide)
  simp [parseline, h0, h1]

end Mara.Rc
