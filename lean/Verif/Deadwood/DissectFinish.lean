import Verif.Deadwood.DissectStep
/-!
# What is put in the cache for a reply: lemmas
-/

namespace Dw
namespace Dissect

open DwStr Spec

/-- The list of servers a question was sent to begins with the name of their zone. -/
structure Servers (ns : DwStr) (bs : List (List UInt8)) : Prop where
  usable : Usable ns
  name : Spec.NameOk bs
  begins : ∃ rest, ns.contents = encName bs ++ rest

/-- How long an answer is kept. -/
def keepTtl (cfg : Times) (ttl : Int) : Int :=
  let ttl := if ttl < 30 then 30 else ttl
  let ttl := if ttl < cfg.min then cfg.min else ttl
  if ttl > cfg.max then cfg.max else ttl

/-- What is done with what has been made of the reply. -/
def finish (cfg : Times) (up : Bool) (query : DwStr) (ttl : Int) (junk : List UInt8) (action : DwStr) : Res Step := do
  let type ← action.fetchU8 (-1)
  if type = 0 ∨ type = 1 ∨ type = 2 then .ok ⟨[⟨query.contents, action.contents, ttl⟩], none, none⟩
  else if type = 16 ∧ !up then handleNsRefer cfg action ttl
  else if type = 17 ∧ !up then handleCnameRefer cfg action query ttl junk
  else .err

theorem cacheReply_zone (cfg : Times) {ns : DwStr} {bs : List (List UInt8)} (h : Servers ns bs) (up : Bool)
    (query inp : DwStr) (ttl : Int) (junk : List UInt8) :
    cacheReply cfg ns up query inp ttl junk = .err ∨
    cacheReply cfg ns up query inp ttl junk =
      (dissect inp query (nameStr (encName bs) junk) junk >>= finish cfg up query (keepTtl cfg ttl) junk) := by
  obtain ⟨rest, hc⟩ := h.begins
  obtain ⟨r2, hd⟩ := buf_drop h.usable (pre := []) (l := encName bs) (post := rest) (by simpa using hc)
  unfold cacheReply
  simp only
  rcases getDname_plain h.name (offset := 0) (by simpa using hd) with e | e
  · rw [e]; exact .inl rfl
  · rw [e]
    simp only [Res.ok_bind]
    have := h.name.2
    rw [if_neg (by omega)]
    exact .inr rfl

theorem fetch_last {s : DwStr} (hs : Usable s) {x : List UInt8} {k : UInt8} (h : s.contents = x ++ [k]) :
    s.fetchU8 (-1) = .ok k.toNat := by
  have hl : s.contents.length = x.length + 1 := by rw [h]; simp
  have := (fetchU8_in hs x.length (by omega)).2
  rw [show ((x.length : Nat) : Int) - s.contents.length = -1 by omega] at this
  rw [this]
  simp [h]

theorem enc_last (p : Answers) : ∃ x, p.packed.enc = x ++ [p.kind] :=
  ⟨p.packed.all.flatMap RR.enc ++ (offsets 0 p.packed.all).flatMap Packed.cell ++ be16 p.packed.an.length ++
    be16 p.packed.ns.length ++ be16 p.packed.ar.length, by simp [Packed.enc, Answers.packed]⟩

theorem finish_answer (cfg : Times) (up : Bool) (query : DwStr) (ttl : Int) (junk : List UInt8) {o : DwStr} (ho : Usable o)
    {a : Answers} (hc : o.contents = a.packed.enc) (hk : a.kind = 0 ∨ a.kind = 1 ∨ a.kind = 2) :
    finish cfg up query ttl junk o = .ok ⟨[⟨query.contents, a.packed.enc, ttl⟩], none, none⟩ := by
  obtain ⟨x, hx⟩ := enc_last a
  unfold finish
  rw [fetch_last ho (by rw [hc, hx]), hc]
  simp only [Res.ok_bind]
  rw [if_pos]
  rcases hk with h | h | h <;> rw [h] <;> decide

theorem referKey : [UInt8.ofNat (65395 / 256), UInt8.ofNat 65395] = be16 65395 := rfl

theorem finish_refer (cfg : Times) (up : Bool) (query : DwStr) (ttl : Int) (junk : List UInt8) {o : DwStr} (ho : Usable o)
    {z : List (List UInt8)} (hz : Spec.NameOk z) {x y : List UInt8} (hc : o.contents = encName z ++ x) (h16 : o.contents = y ++ [16]) :
    (up = true ∧ finish cfg up query ttl junk o = .err) ∨
    (up = false ∧ (finish cfg up query ttl junk o = .ok ⟨[], some o.contents, none⟩ ∨
      finish cfg up query ttl junk o =
        .ok ⟨[⟨encName z ++ be16 65395, o.contents, referTtl cfg z.length ttl⟩], some o.contents, none⟩)) := by
  obtain ⟨rest, hd⟩ := buf_drop ho (pre := []) (l := encName z) (post := x) (by simpa using hc)
  unfold finish
  rw [fetch_last ho h16]
  simp only [Res.ok_bind]
  rw [if_neg (by decide)]
  cases up
  · right
    refine ⟨rfl, ?_⟩
    rw [if_pos (by decide)]
    unfold handleNsRefer
    rcases getDname_plain hz (offset := 0) (by simpa using hd) with e | e
    · rw [e]; exact .inl rfl
    · rw [e]; exact .inr rfl
  · left
    exact ⟨rfl, rfl⟩

theorem getD_last {α : Type} (l : List α) (a : α) : ∀ d, (l ++ [a]).getLastD d = a := by
  intro d
  simp

/-- The key of an alias. -/
theorem aliasKey {query : DwStr} {qs : List (List UInt8)} {qtype : Nat} (h : Asks query qs qtype) (junk : List UInt8) :
    ∃ k, (query.copy junk) = .ok k ∧ ¬ k.len < 3 ∧ ∃ k', k.putU16 65394 (-3) = .ok k' ∧
      k'.contents = encName qs ++ be16 65394 := by
  obtain ⟨k, e1, e2, e3, e4⟩ := copy_exact h.usable junk
  have hl : k.contents.length = (encName qs).length + 2 := by
    rw [e4, h.contents]; simp [be16_length]
  have hcl := e2.clen
  have h255 := h.name.2
  have hpos : 0 < (encName qs).length := by simp [encName]
  obtain ⟨k', f1, f2, f3, f4⟩ := putU16_in e2 65394 (encName qs).length (by omega) (by omega)
  refine ⟨k, e1, by omega, k', ?_, ?_⟩
  · rw [← f1]
    unfold putU16
    have : (if (-3 : Int) < 0 then (k.len : Int) + -3 + 1 else -3) = ((encName qs).length : Nat) := by
      rw [if_pos (by omega)]; omega
    have h2 : (if (((encName qs).length : Nat) : Int) < 0 then (k.len : Int) + ((encName qs).length : Nat) + 1
        else (((encName qs).length : Nat) : Int)) = ((encName qs).length : Nat) := by
      rw [if_neg (by omega)]
    simp only [this, h2]
  · rw [f4, e4, h.contents]
    rw [List.set_append_right _ _ (by omega)]
    rw [List.set_append_right _ _ (by omega)]
    simp only [Nat.sub_self, Nat.add_sub_cancel_left]
    rfl

theorem place_last : ∀ (es : List (List UInt8)) (e : List UInt8) (n d : Nat),
    (place n (es ++ [e])).getLastD d = n + es.flatten.length
  | [], e, n, d => by simp [place]
  | f :: es, e, n, d => by
    simp only [List.cons_append, place, List.getLastD_cons, place_last es e, List.flatten_cons, List.length_append]
    omega

theorem encName_lower_length (ls : List (List UInt8)) : (encName (ls.map (List.map lower))).length = (encName ls).length := by
  unfold encName
  induction ls with
  | nil => rfl
  | cons l ls ih =>
    simp only [List.map_cons, encLabels, List.flatMap_cons, List.length_append, List.length_cons, List.length_map] at ih ⊢
    omega

/-- Where an alias leads. -/
theorem finish_alias (cfg : Times) (up : Bool) {query : DwStr} {qs : List (List UInt8)} {qtype : Nat} (hq : Asks query qs qtype)
    (ttl : Int) (junk : List UInt8) {o : DwStr} (ho : Usable o) {cs : List Rec} {r : Rec} (ht : Spec.NameOk r.target)
    (hsz : ((cs ++ [r]).flatMap aliasEntry).length < 65536)
    (hc : o.contents = aliases (cs ++ [r])) :
    (up = true ∧ finish cfg up query ttl junk o = .err) ∨
    (up = false ∧ ∃ f, finish cfg up query ttl junk o =
        .ok ⟨[⟨encName qs ++ be16 65394, o.contents, aliasTtl cfg ttl⟩], none, f⟩ ∧
        (f = none ∨ f = some (encName (r.target.map (List.map lower)) ++ be16 qtype)) ∧
        ((getDname o.buf ((cs.flatMap aliasEntry).length + 2) 260 ≠ .err) →
          f = some (encName (r.target.map (List.map lower)) ++ be16 qtype))) := by
  have h17 : o.contents = ((cs ++ [r]).flatMap aliasEntry ++
      be16 ((place 0 ((cs ++ [r]).map aliasEntry)).getLastD 0)) ++ [17] := hc
  have hfin : (place 0 ((cs ++ [r]).map aliasEntry)).getLastD 0 = (cs.flatMap aliasEntry).length := by
    rw [List.map_append, List.map_singleton, place_last]
    simp [List.flatMap]
  rw [hfin] at h17
  unfold finish
  rw [fetch_last ho h17]
  simp only [Res.ok_bind]
  rw [if_neg (by decide), if_neg (show ¬ (UInt8.toNat 17 = 16 ∧ (!up) = true) from fun h => absurd h.1 (by decide))]
  cases up
  swap
  · left; exact ⟨rfl, rfl⟩
  right
  refine ⟨rfl, ?_⟩
  rw [if_pos (by decide)]
  obtain ⟨k, e1, e2, k', e3, e4⟩ := aliasKey hq junk
  unfold handleCnameRefer
  rw [e1]
  simp only [Res.ok_bind]
  rw [if_neg e2, e3]
  simp only [Res.ok_bind]
  rw [e4]
  have hlen : o.contents.length = ((cs ++ [r]).flatMap aliasEntry).length + 3 := by
    rw [h17]; simp [be16_length]; omega
  have hat : BytesAt o.mem ((cs ++ [r]).flatMap aliasEntry).length (be16 (cs.flatMap aliasEntry).length) :=
    bytesAt_mid (post := [17]) h17
  have hsub : (cs.flatMap aliasEntry).length < 65536 := by
    have : ((cs ++ [r]).flatMap aliasEntry).length = (cs.flatMap aliasEntry).length + (aliasEntry r).length := by simp
    omega
  have hf := fetchU16_at ho hat hsub
  have hf' : o.fetchU16 (-2) = .ok (cs.flatMap aliasEntry).length := by
    rw [← hf]
    have := fetchU16_in ho ((cs ++ [r]).flatMap aliasEntry).length (by omega)
    rw [this.1, ← this.2]
    congr 1
    omega
  obtain ⟨rest, hd⟩ := buf_drop ho (pre := cs.flatMap aliasEntry ++ be16 (encName r.target).length) (l := encName r.target)
    (post := be16 (cs.flatMap aliasEntry).length ++ [17]) (by rw [h17]; simp [aliasEntry])
  rw [List.length_append, be16_length] at hd
  rw [hf']
  simp only [Res.ok_bind]
  rcases getDname_plain ht (offset := (cs.flatMap aliasEntry).length + 2) hd with e | e
  · rw [e]
    exact ⟨none, rfl, .inl rfl, fun h => absurd rfl h⟩
  · rw [e]
    simp only [Res.ok_bind]
    have hzone := nameStr_zone ht junk
    obtain ⟨s', l1, l2, l3, l4⟩ := lowerCase_exact hzone.usable ht.1 (rest := []) (by rw [hzone.contents]; simp)
    rw [l1]
    simp only [Res.ok_bind]
    rw [hq.fetch]
    simp only [Res.ok_bind]
    have hs'len : s'.contents.length ≤ 255 := by
      rw [l4, List.append_nil, encName_lower_length]; exact ht.2
    have hmax : s'.max = 260 := by rw [l3]; rfl
    obtain ⟨t, t1, t2, t3, t4⟩ := (pushU16_exact qtype l2).2 (by rw [hmax]; omega)
    have : s'.putU16 qtype (-1) = .ok t := t1
    rw [this]
    refine ⟨_, rfl, .inr ?_, fun _ => ?_⟩ <;> rw [t4, l4, List.append_nil] <;> rfl

/-! ### All replies -/

theorem cnameLoop_other {s : DwStr} (hs : Usable s) (junk : List UInt8) :
    ∀ {cells : List (Nat × Nat)} {rs : List Rec}, Sec s cells rs → ∀ {ms : List Int}, List.Forall₂ AnyMark rs ms →
    (∃ m ∈ ms, m ≠ 36 ∧ m ≠ 5) → ∀ (out : DwStr) (final : Nat), Usable out →
    cnameLoop s junk (cells.zip ms) out final = .err
  | _, _, .nil, _, .nil, h, _, _, _ => by simp at h
  | _, _, .cons (a := c) (b := r) (l₂ := rs) h hsec, _, .cons (b := m) (l₂ := ms) hm hms, hex, out, final, ho => by
    simp only [List.zip_cons_cons, cnameLoop]
    have hex' : (m ≠ 36 ∧ m ≠ 5) ∨ ∃ m ∈ ms, m ≠ 36 ∧ m ≠ 5 := by
      obtain ⟨x, hx, h⟩ := hex
      rcases List.mem_cons.1 hx with rfl | hx
      · exact .inl h
      · exact .inr ⟨x, hx, h⟩
    by_cases h36 : m = 36
    · rw [if_pos h36]
      exact cnameLoop_other hs junk hsec hms (hex'.resolve_left (fun c => c.1 h36)) out final ho
    · rw [if_neg h36]
      by_cases h5 : m = 5
      · rw [if_neg (by omega)]
        have ht : r.type = 5 := by
          have := hm.resolve_left h36
          exact (rrNumber_eq (t := r.type) (k := 5) (by omega) (by omega)).1 (by rw [← this, h5]; rfl)
        obtain ⟨-, hrd, hok⟩ := oneName_form h.plain (.inr ht)
        have hd := h.data
        rw [hrd] at hd
        obtain ⟨t, e1, e2, e3⟩ := oneName_exact hs hok hd junk
        have ht' := e2.clen
        rw [e3] at ht'
        have h255 := hok.2
        rw [e1]
        simp only [Res.ok_bind]
        rw [if_neg (by omega)]
        rcases pushU16_safe ho (v := t.len) with e | ⟨o1, e, ho1, -, -⟩
        · rw [e]; rfl
        · rw [e]
          simp only [Res.ok_bind]
          rcases append_safe e2.live ho1 with e | ⟨o2, e, ho2, -, -⟩
          · rw [e]; rfl
          · rw [e]
            simp only [Res.ok_bind]
            exact cnameLoop_other hs junk hsec hms (hex'.resolve_left (fun c => c.2 h5)) o2 _ ho2
      · rw [if_pos h5]

theorem afterCname_kind {qtype : Int} (l : List Int) : afterCname qtype l = 0 ∨ afterCname qtype l = 17 ∨ afterCname qtype l = 19 := by
  induction l with
  | nil => simp [afterCname]
  | cons t l ih =>
    unfold afterCname
    split
    · simp
    split
    · simp
    · exact ih

theorem kindLoop_kind {qtype : Int} : ∀ (n left : Nat) (l : List Int) (k : Nat), kindLoop qtype n left l = some k →
    k = 0 ∨ (k = 17 ∧ 5 ∈ l) ∨ k = 19
  | 0, _, _, _, h => by simp [kindLoop] at h
  | _ + 1, _, [], _, h => by simp [kindLoop] at h
  | n + 1, left, t :: l, k, h => by
    unfold kindLoop at h
    split at h
    · simp only [Option.some.injEq] at h; omega
    split at h
    · rename_i h5
      simp only [Option.some.injEq] at h
      rcases afterCname_kind (qtype := qtype) (l.take (left - 1)) with e | e | e
      · omega
      · exact .inr (.inl ⟨by omega, by rw [h5]; simp⟩)
      · omega
    split at h
    · simp only [Option.some.injEq] at h; omega
    · rcases kindLoop_kind n (left - 1) l k h with e | e | e
      · exact .inl e
      · exact .inr (.inl ⟨e.1, by simp [e.2]⟩)
      · exact .inr (.inr e)

/-- The alias records of a list are not larger than the records. -/
theorem alias_size : ∀ (rs : List Rec), (∀ r ∈ rs, r.Plain) → (∀ r ∈ rs, r.type = 5) →
    (rs.flatMap aliasEntry).length ≤ sizes (rs.map Rec.toRR)
  | [], _, _ => by simp
  | r :: rs, h, h5 => by
    have ih := alias_size rs (fun x hx => h x (by simp [hx])) (fun x hx => h5 x (by simp [hx]))
    obtain ⟨-, hrd, -⟩ := oneName_form (h r (by simp)) (.inr (h5 r (by simp)))
    have he : r.toRR.size = (encName r.name).length + 10 + (encName r.target).length := by
      simp [RR.size, Rec.toRR, hrd]
    simp only [List.flatMap_cons, List.length_append, aliasEntry, be16_length, List.map_cons, sizes_cons] at ih ⊢
    omega

theorem keep_mem : ∀ {rs : List Rec} {ms : List Int} {P : Rec → Int → Prop}, List.Forall₂ P rs ms →
    ∀ r ∈ keep rs ms, ∃ m, P r m ∧ m ≠ 36 ∧ m ≠ 37
  | _, _, _, .nil, r, h => by simp [keep] at h
  | _, _, _, .cons (a := x) (b := m) h hs, r, hr => by
    simp only [keep] at hr
    split at hr
    · exact keep_mem hs r hr
    · rename_i hm
      rcases List.mem_cons.1 hr with rfl | hr
      · exact ⟨m, h, by omega, by omega⟩
      · exact keep_mem hs r hr

theorem keep_five : ∀ {rs : List Rec} {ms : List Int}, List.Forall₂ AnyMark rs ms → 5 ∈ ms → keep rs ms ≠ []
  | _, _, .nil, h => by simp at h
  | _, _, .cons (b := m) h hs, h5 => by
    simp only [keep]
    split
    · rename_i hm
      rcases List.mem_cons.1 h5 with e | e
      · omega
      · exact keep_five hs e
    · simp

/-- The kinds of things a reply can be made into. -/
inductive Makes (bs qs : List (List UInt8)) (qtype : Nat) (p : Answers) (o : List UInt8) : Prop
  | answer (kept : List Rec) (some : p.an ≠ []) (sub : kept.Sublist p.an) (cls : ∀ r ∈ kept, inClass r)
      (types : qtype ≠ 255 → ∀ r ∈ kept, r.type = qtype ∨ r.type = 5)
      (eq : o = (⟨kept, [], [], 0⟩ : Answers).packed.enc)
  | alias (cs : List Rec) (r : Rec) (some : p.an ≠ []) (sub : (cs ++ [r]).Sublist p.an)
      (types : ∀ x ∈ cs ++ [r], x.type = 5) (eq : o = aliases (cs ++ [r]))
  | denial (r : Rec) (rest : List Rec) (none : p.an = []) (first : p.ns = r :: rest) (soa : r.type = 6)
      (eq : o = (negative p).packed.enc)
  | extra (r : Rec) (none : p.an = []) (mem : r ∈ p.ar) (right : Right qs qtype r) (cls : inClass r)
      (eq : o = (⟨[r], [], [], 0⟩ : Answers).packed.enc)
  | refer (none : p.an = []) (x y : List UInt8)
      (z : List (List UInt8)) (ok : Spec.NameOk z) (zone : longestOf (candidates bs qs (tag 15 p.ns)) .none = some z)
      (eq : o = encName z ++ x) (last : o = y ++ [16])
  | blank (none : p.an = []) (eq : o = [0, 16])

theorem longestOf_none : ∀ (rs : List Rec) (z : Option (List (List UInt8))), longestOf rs z = none → rs = [] ∧ z = none
  | [], z, h => ⟨rfl, h⟩
  | r :: rs, z, h => by
    unfold longestOf at h
    split at h
    · have := (longestOf_none rs _ h).2; cases this
    · rename_i hc
      have := (longestOf_none rs _ h).2
      rw [this] at hc
      simp [encName] at hc

theorem dissect_makes {inp query b : DwStr} {p : Answers} (hr : Reply inp p) {qs bs : List (List UInt8)} {qtype : Nat}
    (hq : Asks query qs qtype) (hb : Zone b bs) (junk : List UInt8) :
    dissect inp query b junk = .err ∨ ∃ o, dissect inp query b junk = .ok o ∧ Usable o ∧ Makes bs qs qtype p o.contents := by
  by_cases han : p.an = []
  · cases hns : p.ns with
    | nil => exact .inl (dissect_empty hr hq hb.usable han (fun r rest h => by rw [hns] at h; cases h) junk)
    | cons r rest =>
      by_cases h6 : r.type = 6
      · have X := dissect_soa hr hq hb.usable han hns h6 junk
        by_cases hk : p.kind = 2
        · exact .inl (X.2 (.inl hk))
        · by_cases hc : ∀ r ∈ (negative p).all, inClass r
          · obtain ⟨o, e1, e2, e3⟩ := X.1 hk hc
            exact .inr ⟨o, e1, e2, .denial r rest han hns h6 e3⟩
          · refine .inl (X.2 (.inr ?_))
            by_contra hn
            exact hc fun r h => by
              by_contra hh
              exact hn ⟨r, h, hh⟩
      · by_cases h2 : r.type = 2
        · rcases dissect_ns hr hq hb han hns h2 junk with ⟨pre, x, post, e1, e2, e3, e4, e5⟩ |
            ⟨e1, look, nsM, arM, T, hv, m1, m2, m3, m4⟩
          · by_cases hc : inClass x
            · obtain ⟨o, f1, f2, f3⟩ := e4 hc
              exact .inr ⟨o, f1, f2, .extra x han (by rw [e1]; simp) e2 hc f3⟩
            · exact .inl (e5 hc)
          · by_cases hk : p.kind = 2
            · rw [if_pos hk] at m4; exact .inl m4
            · rw [if_neg hk] at m4
              cases hz : longestOf (candidates bs qs (tag 15 p.ns)) none with
              | some z =>
                rcases nsRefer_prefix hr hv (an := []) m1 m2.length_eq.symm junk with e | ⟨o, e, ho, x, hx⟩
                · rw [m4]; exact .inl e
                · rw [m4]
                  rw [hz] at hx
                  refine .inr ⟨o, e, ho, .refer han (x ++ [16]) (encName z ++ x) z ?_ hz (by rw [hx]; simp [zoneBytes]) (by rw [hx]; simp [zoneBytes])⟩
                  rcases longestOf_mem _ _ hz with h | ⟨y, hy, rfl⟩
                  · cases h
                  · unfold candidates at hy
                    obtain ⟨w, hw, rfl⟩ := List.mem_map.1 hy
                    have hw := (List.mem_filter.1 hw).1
                    have : w.1 ∈ p.ns := by rw [← tag_fst 15 p.ns]; exact List.mem_map.2 ⟨w, hw, rfl⟩
                    exact (hr.recs w.1 (by simp [Answers.all, this])).name
              | none =>
                have hcand := (longestOf_none _ _ hz).1
                have hno : ∀ x ∈ tag 15 p.ns, ¬ Followed bs qs x := by
                  intro x hx hf
                  have : x.1 ∈ candidates bs qs (tag 15 p.ns) := by
                    unfold candidates
                    exact List.mem_map.2 ⟨x, List.mem_filter.2 ⟨hx, decide_eq_true ⟨.inl hf.2.2, fun _ => hf.2.1⟩⟩, rfl⟩
                  rw [hcand] at this
                  simp at this
                have hT : ∀ t, t ∉ T := fun t ht => by
                  obtain ⟨x, hx, hf, -⟩ := (m3 t).1 ht
                  exact hno x hx hf
                have hg : glueOf T p.ar = [] := by
                  unfold glueOf
                  rw [List.filter_eq_nil_iff]
                  intro r _ h
                  simp only [Bool.and_eq_true, decide_eq_true_eq] at h
                  obtain ⟨t, ht, -⟩ := h.2
                  exact hT t ht
                have hbare : bareOf bs qs p.ar (tag 15 p.ns) = [] := by
                  unfold bareOf
                  rw [List.map_eq_nil_iff, List.filter_eq_nil_iff]
                  intro x hx h
                  exact hno x hx (of_decide_eq_true h).1
                have X := nsRefer_exact hr hv (an := []) m1 m2 (by rw [hg]; simp) junk [] (by rw [hg, hbare]; rfl)
                obtain ⟨o, e1, e2, e3⟩ := X.1 (by simp)
                rw [m4]
                refine .inr ⟨o, e1, e2, .blank han ?_⟩
                rw [e3, hz]
                rfl
        · exact .inl (dissect_empty hr hq hb.usable han (fun x xs h => by rw [hns] at h; cases h; exact ⟨h6, h2⟩) junk)
  · obtain ⟨look, l, hv, hany, hmark, -, hd⟩ := dissect_answers hr hq hb.usable han junk
    rw [hd]
    cases hk : kindLoop qtype 7 32 l with
    | none => exact .inl rfl
    | some k =>
      simp only
      rw [kind_byte hr hv]
      split
      · exact .inl rfl
      rcases kindLoop_kind _ _ _ _ hk with rfl | ⟨rfl, h5⟩ | rfl
      · simp only [show ¬ (0 : Nat) = 17 by omega, show ¬ (0 : Nat) = 16 by omega, if_false, true_or, if_true]
        have X := remake_exact hr hv (an := l) (ns := p.ns.map fun _ => 36) (ar := p.ar.map fun _ => 36)
          hany.length_eq.symm (by simp) (by simp) (UInt8.ofNat 0) junk
        have he : Answers.kept p l (p.ns.map fun _ => 36) (p.ar.map fun _ => 36) (UInt8.ofNat 0) = ⟨keep p.an l, [], [], 0⟩ := by
          unfold Answers.kept
          rw [keep_none, keep_none]
          rfl
        rw [he] at X
        have hall : (⟨keep p.an l, [], [], 0⟩ : Answers).all = keep p.an l := by simp [Answers.all]
        rw [hall] at X
        by_cases hc : ∀ r ∈ keep p.an l, inClass r
        · obtain ⟨o, e1, e2, e3⟩ := X.1 hc
          refine .inr ⟨o, e1, e2, .answer (keep p.an l) han (keep_sublist _ _) hc (fun h r hr => ?_) e3⟩
          obtain ⟨m, hm, h36, -⟩ := keep_mem (hmark h) r hr
          exact (hm.resolve_left h36).2
        · refine .inl (X.2 ?_)
          by_contra hn
          exact hc fun r h => by
            by_contra hh
            exact hn ⟨r, h, hh⟩
      · simp only [if_true]
        by_cases hoth : ∃ m ∈ l, m ≠ 36 ∧ m ≠ 5
        · left
          have hlen : look.an.length = p.an.length := sec_length hv.an
          have hpos : 0 < p.an.length := List.length_pos_iff.2 han
          have hcnt := count_le (p.all.map Rec.toRR)
          have hsz := hr.size
          rw [List.length_map] at hcnt
          have hcall : p.all.length = p.an.length + p.ns.length + p.ar.length := by simp [Answers.all]; omega
          unfold cnameRefer
          simp only
          rw [hlen]
          obtain ⟨o0, a1, a2, -, -⟩ := create_usable (257 * p.an.length) junk (by omega) (by omega)
          rw [a1]
          simp only [Res.ok_bind]
          rw [cnameLoop_other hv.packet junk hv.an' hany hoth o0 0 a2]
          rfl
        · have hfive : ∀ (r : Rec) (m : Int), AnyMark r m → m = 36 ∨ m = 5 → m = 36 ∨ (m = 5 ∧ r.type = 5) := by
            rintro r m h (e | e)
            · exact .inl e
            · refine .inr ⟨e, ?_⟩
              have := h.resolve_left (by omega)
              exact (rrNumber_eq (t := r.type) (k := 5) (by omega) (by omega)).1 (by rw [← this, e]; rfl)
          have hm : List.Forall₂ (fun r m => m = 36 ∨ (m = 5 ∧ r.type = 5)) p.an l := by
            clear hk h5 hd hmark
            revert hoth
            generalize p.an = an at hany
            intro hoth
            induction hany with
            | nil => exact .nil
            | @cons r m rs ms h hs ih =>
              refine .cons (hfive r m h ?_) (ih fun ⟨x, hx, h⟩ => hoth ⟨x, by simp [hx], h⟩)
              by_contra hc
              exact hoth ⟨m, by simp, fun e => hc (.inl e), fun e => hc (.inr e)⟩
          have X := cnameRefer_exact hr hv han (ns := p.ns.map fun _ => 36) (ar := p.ar.map fun _ => 36) hm junk
          by_cases hroom : ((keep p.an l).flatMap aliasEntry).length + 3 < 257 * p.an.length
          · obtain ⟨o, e1, e2, e3⟩ := X.1 hroom
            have hne := keep_five hany h5
            obtain ⟨cs, r, hcr⟩ : ∃ cs r, keep p.an l = cs ++ [r] :=
              ⟨_, _, (List.dropLast_append_getLast hne).symm⟩
            refine .inr ⟨o, e1, e2, .alias cs r han (by rw [← hcr]; exact keep_sublist _ _) ?_ (by rw [e3, hcr])⟩
            intro x hx
            rw [← hcr] at hx
            obtain ⟨m, h1, h2, h3⟩ := keep_mem hm x hx
            exact (h1.resolve_left h2).2
          · exact .inl (X.2 (by omega))
      · simp

/-! ### Names that can be read -/

theorem dnameLabel_short (raw : List UInt8) (cap : Nat) (hcap : 260 ≤ cap) :
    ∀ (l : List UInt8) (offset : Nat) (acc rest : List UInt8), raw.drop (offset + 1) = l ++ rest →
    offset + l.length < 258 → acc.length + l.length ≤ 256 → (∀ x ∈ l, 32 ≤ x.toNat) →
    dnameLabel raw 260 cap l.length offset acc = .ok (offset + l.length, acc ++ l) := by
  intro l
  induction l with
  | nil => intro offset acc rest _ _ _ _; simp [dnameLabel]
  | cons x l ih =>
    intro offset acc rest h h1 h2 h3
    simp only [List.length_cons] at h1 h2
    simp only [List.length_cons, dnameLabel]
    rw [if_neg (by omega), if_neg (by omega)]
    have hx : raw[offset + 1]? = some x := by
      have := congrArg (·[0]?) h
      simpa using this
    have hp : rawPeek raw (offset + 1) = .ok x := by unfold rawPeek; rw [hx]
    rw [hp]
    simp only [Res.ok_bind]
    have h32 := h3 x (by simp)
    rw [if_neg (by rw [UInt8.lt_iff_toNat_lt]; show ¬ x.toNat < 32; omega)]
    have hr : raw.drop (offset + 1 + 1) = l ++ rest := by
      rw [← List.drop_drop, h]; rfl
    rw [ih (offset + 1) (acc ++ [x]) rest hr (by omega) (by simp; omega) (fun y hy => h3 y (by simp [hy]))]
    simp only [List.append_assoc, List.singleton_append]
    congr 2
    omega

theorem dnameLoop_short (raw : List UInt8) (cap : Nat) (hcap : 260 ≤ cap) :
    ∀ (ls : List (List UInt8)) (n offset : Nat) (acc rest : List UInt8), ls.length < n → n ≤ 400 → LabelsOk ls →
    raw.drop offset = encName ls ++ rest → offset + (encName ls).length ≤ 258 → acc.length + (encName ls).length ≤ 255 →
    (∀ l ∈ ls, ∀ x ∈ l, 32 ≤ x.toNat) →
    dnameLoop raw 260 cap n offset acc = .ok (acc ++ encName ls, 400 - n + ls.length) := by
  intro ls
  induction ls with
  | nil =>
    intro n offset acc rest hn hn4 _ h h1 h2 _
    obtain ⟨n, rfl⟩ : ∃ k, n = k + 1 := ⟨n - 1, by simp at hn; omega⟩
    have he : (encName []).length = 1 := by simp [encName, encLabels]
    rw [he] at h1 h2
    simp only [dnameLoop]
    rw [if_neg (by omega), if_neg (by omega)]
    have hx : raw[offset]? = some 0 := by
      have := congrArg (·[0]?) h
      simpa [encName, encLabels] using this
    have hp : rawPeek raw offset = .ok 0 := by unfold rawPeek; rw [hx]
    rw [hp]
    simp [encName, encLabels]
  | cons l ls ih =>
    intro n offset acc rest hn hn4 hok h h1 h2 h3
    obtain ⟨n, rfl⟩ : ∃ k, n = k + 1 := ⟨n - 1, by simp at hn; omega⟩
    have hl := hok l (by simp)
    have he : encName (l :: ls) = UInt8.ofNat l.length :: (l ++ encName ls) := by simp [encName, encLabels]
    have hel : (encName (l :: ls)).length = 1 + l.length + (encName ls).length := by rw [he]; simp; omega
    have hpos : 0 < (encName ls).length := by simp [encName]
    simp only [dnameLoop]
    rw [if_neg (by omega), if_neg (by omega)]
    have hx : raw[offset]? = some (UInt8.ofNat l.length) := by
      have := congrArg (·[0]?) h
      simpa [he] using this
    have hp : rawPeek raw offset = .ok (UInt8.ofNat l.length) := by unfold rawPeek; rw [hx]
    have hto : (UInt8.ofNat l.length).toNat = l.length := by rw [ofNat8_toNat]; omega
    have hr : raw.drop (offset + 1) = l ++ (encName ls ++ rest) := by
      rw [← List.drop_drop, h, he]; simp
    rw [hp]
    simp only [Res.ok_bind]
    rw [if_neg (by rw [gt_iff_lt, UInt8.lt_iff_toNat_lt, hto]; show ¬ 63 < l.length; omega), if_neg (by
      intro hc
      have := congrArg UInt8.toNat hc
      rw [hto] at this
      have h0 : (0 : UInt8).toNat = 0 := rfl
      omega), hto]
    rw [dnameLabel_short raw cap hcap l offset (acc ++ [UInt8.ofNat l.length]) _ hr (by omega) (by simp; omega)
      (h3 l (by simp))]
    simp only [Res.ok_bind]
    have hr2 : raw.drop (offset + l.length + 1) = encName ls ++ rest := by
      rw [show offset + l.length + 1 = (offset + 1) + l.length by omega, ← List.drop_drop, hr]; simp
    rw [ih n (offset + l.length + 1) (acc ++ [UInt8.ofNat l.length] ++ l) rest (by simpa using hn) (by omega)
      (fun x hx => hok x (by simp [hx])) hr2 (by omega) (by simp; omega) (fun x hx => h3 x (by simp [hx])), he]
    simp only [List.append_assoc, List.singleton_append, List.length_cons, List.cons_append, List.nil_append]
    congr 2
    omega

/-- A name without control characters, not too far in, is read. -/
theorem getDname_short {raw : List UInt8} {offset : Nat} {ls : List (List UInt8)} (hok : Spec.NameOk ls) {rest : List UInt8}
    (h : raw.drop offset = encName ls ++ rest) (hfar : offset + (encName ls).length ≤ 258)
    (hctl : ∀ l ∈ ls, ∀ x ∈ l, 32 ≤ x.toNat) :
    getDname raw offset 260 = .ok (encName ls, ls.length) := by
  have := nameOk_length hok
  have := hok.2
  unfold getDname
  simp only [gt_iff_lt, Nat.lt_irrefl, if_false]
  rw [if_neg (by omega)]
  rw [dnameLoop_short raw 260 (by omega) ls 400 offset [] rest (by omega) (by omega) hok.1 h hfar (by simp; omega) hctl]
  simp

theorem cacheReply_zone' (cfg : Times) {ns : DwStr} {bs : List (List UInt8)} (h : Servers ns bs)
    (hctl : ∀ l ∈ bs, ∀ x ∈ l, 32 ≤ x.toNat) (up : Bool) (query inp : DwStr) (ttl : Int) (junk : List UInt8) :
    cacheReply cfg ns up query inp ttl junk =
      (dissect inp query (nameStr (encName bs) junk) junk >>= finish cfg up query (keepTtl cfg ttl) junk) := by
  obtain ⟨rest, hc⟩ := h.begins
  obtain ⟨r2, hd⟩ := buf_drop h.usable (pre := []) (l := encName bs) (post := rest) (by simpa using hc)
  have := h.name.2
  unfold cacheReply
  simp only
  rw [getDname_short h.name (offset := 0) (by simpa using hd) (by omega) hctl]
  simp only [Res.ok_bind]
  rw [if_neg (by omega)]
  rfl

/-! ### The referral in terms of the reply -/

theorem tag_filter (P : Rec → Prop) [DecidablePred P] : ∀ (n : Nat) (rs : List Rec),
    ((tag n rs).filter fun x => decide (x.2 = true ∧ P x.1)).map Prod.fst = (rs.take n).filter fun r => decide (P r)
  | 0, rs => by
    simp only [tag, List.take_zero, List.filter_nil, List.map_eq_nil_iff, List.filter_eq_nil_iff, List.mem_map]
    rintro x ⟨r, -, rfl⟩
    simp
  | n + 1, [] => by simp [tag]
  | n + 1, r :: rs => by
    simp only [tag, List.take_succ_cons, List.filter_cons, true_and]
    by_cases h : P r
    · simp only [h, decide_true, if_true, List.map_cons, tag_filter P n rs]
    · simp only [h, decide_false, Bool.false_eq_true, if_false, tag_filter P n rs]

theorem followed_iff (bs qs : List (List UInt8)) (x : Rec × Bool) :
    Followed bs qs x ↔ x.2 = true ∧ x.1.Delegates bs qs := by
  unfold Followed Fit Rec.Delegates
  simp only [and_congr_right_iff]
  intro _
  constructor
  · rintro ⟨⟨a, b⟩, c⟩; exact ⟨c, a, b⟩
  · rintro ⟨c, a, b⟩; exact ⟨⟨a, b⟩, c⟩

theorem delegations_mem (bs qs : List (List UInt8)) (ns : List Rec) (t : List (List UInt8)) :
    (∃ x ∈ tag 15 ns, Followed bs qs x ∧ t = x.1.target) ↔ ∃ d ∈ delegations bs qs ns, t = d.target := by
  have h := tag_filter (fun r => r.Delegates bs qs) 15 ns
  unfold delegations
  rw [← h]
  constructor
  · rintro ⟨x, hx, hf, rfl⟩
    exact ⟨x.1, List.mem_map.2 ⟨x, List.mem_filter.2 ⟨hx, decide_eq_true ((followed_iff bs qs x).1 hf)⟩, rfl⟩, rfl⟩
  · rintro ⟨d, hd, rfl⟩
    obtain ⟨x, hx, rfl⟩ := List.mem_map.1 hd
    obtain ⟨h1, h2⟩ := List.mem_filter.1 hx
    exact ⟨x, h1, (followed_iff bs qs x).2 (of_decide_eq_true h2), rfl⟩

theorem glueOf_eq {bs qs : List (List UInt8)} {ns ar : List Rec} {T : List (List (List UInt8))}
    (hT : ∀ t, t ∈ T ↔ ∃ x ∈ tag 15 ns, Followed bs qs x ∧ t = x.1.target) : glueOf T ar = addresses bs qs ns ar := by
  unfold glueOf addresses
  apply List.filter_congr
  intro r _
  congr 1
  apply decide_eq_decide.2
  constructor
  · rintro ⟨t, ht, ha⟩
    obtain ⟨d, hd, rfl⟩ := (delegations_mem bs qs ns t).1 ((hT t).1 ht)
    exact ⟨d, hd, ha⟩
  · rintro ⟨d, hd, ha⟩
    exact ⟨d.target, (hT _).2 ((delegations_mem bs qs ns _).2 ⟨d, hd, rfl⟩), ha⟩

theorem bareOf_eq (bs qs : List (List UInt8)) (ns ar : List Rec) : bareOf bs qs ar (tag 15 ns) = nameless bs qs ns ar := by
  unfold bareOf nameless delegations
  rw [List.filter_filter]
  have h := tag_filter (fun r => r.Delegates bs qs ∧ ¬ Glued ar r.target) 15 ns
  rw [show (fun x : Rec × Bool => decide (Followed bs qs x ∧ ¬ Glued ar x.1.target)) =
    fun x => decide (x.2 = true ∧ (x.1.Delegates bs qs ∧ ¬ Glued ar x.1.target)) from by
      funext x
      apply decide_eq_decide.2
      rw [followed_iff, and_assoc], h]
  apply List.filter_congr
  intro r _
  unfold Glued
  rw [Bool.decide_and, Bool.and_comm]

theorem tag_all : ∀ (n : Nat) (rs : List Rec), rs.length ≤ n → ∀ x ∈ tag n rs, x.2 = true
  | 0, [], _, x, h => by simp [tag] at h
  | 0, _ :: _, h, _, _ => by simp at h
  | n + 1, [], _, x, h => by simp [tag] at h
  | n + 1, r :: rs, hl, x, h => by
    simp only [tag, List.mem_cons] at h
    rcases h with rfl | h
    · rfl
    · exact tag_all n rs (by simpa using hl) x h

/-- The name of a referral, if there are at most fifteen authority records. -/
theorem candidate_few {bs qs : List (List UInt8)} {ns : List Rec} (h15 : ns.length ≤ 15) {z : List (List UInt8)}
    (h : longestOf (candidates bs qs (tag 15 ns)) none = some z) :
    ∃ r ∈ ns, r.name = z ∧ (r.type = 2 ∨ r.type = 6) ∧ MayDelegate bs qs z := by
  rcases longestOf_mem _ _ h with h | ⟨r, hr, rfl⟩
  · cases h
  · unfold candidates at hr
    obtain ⟨x, hx, rfl⟩ := List.mem_map.1 hr
    obtain ⟨h1, h2⟩ := List.mem_filter.1 hx
    have h2 := of_decide_eq_true h2
    have hm : x.1 ∈ ns := by rw [← tag_fst 15 ns]; exact List.mem_map.2 ⟨x, h1, rfl⟩
    exact ⟨x.1, hm, rfl, h2.1, (h2.2 (tag_all 15 ns h15 x h1)).1⟩

theorem longestOf_ge : ∀ (rs : List Rec) (z : Option (List (List UInt8))) {n : List (List UInt8)},
    longestOf rs z = some n → (∀ r ∈ rs, (encName r.name).length ≤ (encName n).length) ∧
      (z.map fun n => (encName n).length).getD 0 ≤ (encName n).length
  | [], z, n, h => by
    refine ⟨by simp, ?_⟩
    unfold longestOf at h
    rw [h]; simp
  | r :: rs, z, n, h => by
    unfold longestOf at h
    split at h
    · rename_i hc
      obtain ⟨h1, h2⟩ := longestOf_ge rs _ h
      simp only [Option.map_some, Option.getD_some] at h2
      exact ⟨by intro x hx; rcases List.mem_cons.1 hx with rfl | hx; exacts [h2, h1 x hx], by omega⟩
    · rename_i hc
      obtain ⟨h1, h2⟩ := longestOf_ge rs _ h
      exact ⟨by intro x hx; rcases List.mem_cons.1 hx with rfl | hx; exacts [by omega, h1 x hx], h2⟩

theorem finish_refer' (cfg : Times) (query : DwStr) (ttl : Int) (junk : List UInt8) {o : DwStr} (ho : Usable o)
    {z : List (List UInt8)} (hz : Spec.NameOk z) (hctl : ∀ l ∈ z, ∀ x ∈ l, 32 ≤ x.toNat) {x y : List UInt8}
    (hc : o.contents = encName z ++ x) (h16 : o.contents = y ++ [16]) :
    finish cfg false query ttl junk o =
        .ok ⟨[⟨encName z ++ be16 65395, o.contents, referTtl cfg z.length ttl⟩], some o.contents, none⟩ := by
  obtain ⟨rest, hd⟩ := buf_drop ho (pre := []) (l := encName z) (post := x) (by simpa using hc)
  have h255 := hz.2
  unfold finish
  rw [fetch_last ho h16]
  simp only [Res.ok_bind]
  rw [if_neg (by decide), if_pos (by decide)]
  unfold handleNsRefer
  rw [getDname_short hz (offset := 0) (by simpa using hd) (by omega) hctl]
  rfl

end Dissect
end Dw
