import Verif.Deadwood.AliasMake
import Verif.Deadwood.ReplyMessageProps
/-!
# The answer for a name that is an alias: properties
-/

namespace Dw
namespace Alias
open DwStr Dissect Spec
open Dw.Reply (AnsOk asked makePacket Carries answer_message)

/-! ### How long it is kept -/

theorem nameEnd_plain {s : DwStr} (hs : Usable s) {i : Nat} {ls : List (List UInt8)} (h : PlainAt s.mem i ls)
    (hn : ls.length < 200) : NameEnd s.contents i (i + (encName ls).length) := by
  obtain ⟨h1, rest, h2⟩ := PlainAt.drop hs h
  refine ⟨ls, 0, rest, by rw [h2]; simp [encName], h1, hn, Or.inl ⟨rfl, ?_⟩⟩
  simp [encName]; omega

theorem numAt_be16 {s : DwStr} {i v : Nat} (h : BytesAt s.mem i (be16 v)) (hv : v < 65536) : numAt s.contents i 2 = v := by
  have := bytesAt_take h
  rw [be16_length] at this
  unfold numAt
  rw [this]
  simp [be16]; omega

theorem numAt_be32 {s : DwStr} {i v : Nat} (h : BytesAt s.mem i (be32 v)) (hv : v < 4294967296) : numAt s.contents i 4 = v := by
  have := bytesAt_take h
  rw [be32_length] at this
  unfold numAt
  rw [this]
  simp [be32, be16]; omega

/-- The lifetimes of the aliases at the beginning and of the record behind them. -/
theorem ttlChain_of {s : DwStr} (hs : Usable s) {x : Rec} (hx : x.type ≠ 5) : ∀ (cs : List Rec) (pre post : List UInt8),
    (∀ r ∈ cs ++ [x], r.Plain) → (∀ r ∈ cs, r.type = 5) →
    s.contents = pre ++ ((cs ++ [x]).map Rec.toRR).flatMap RR.enc ++ post →
    TtlChain s.contents pre.length (cs.map Rec.ttl ++ [x.ttl])
  | [], pre, post, hp, _, hc => by
    have hxp := hp x (by simp)
    have hh : Here s (pre.length, pre.length + (encName x.name).length) x :=
      ⟨hxp, rfl, bytesAt_mid (post := post) (by rw [hc]; simp)⟩
    have h32 : BytesAt s.mem (pre.length + (encName x.name).length + 4) (be32 x.ttl) := by
      have h2 := bytesAt_right (bytesAt_right hh.rest)
      rw [be16_length, hxp.ok.cls] at h2
      exact bytesAt_left h2
    have h16 := bytesAt_left hh.rest
    have hle := bytesAt_le h32 (by rw [be32_length]; omega)
    rw [be32_length] at hle
    have := TtlChain.last (nameEnd_plain hs hh.nameAt (nameOk_length hxp.name)) (by simp only [] at hle ⊢; omega)
      (by rw [numAt_be16 h16 hxp.ok.type]; exact hx)
    rw [numAt_be32 h32 hxp.ok.ttl] at this
    exact this
  | c :: cs, pre, post, hp, h5, hc => by
    have hcp := hp c (by simp)
    have hct := h5 c (by simp)
    obtain ⟨-, hrd, htn⟩ := oneName_form hcp (.inr hct)
    have hh : Here s (pre.length, pre.length + (encName c.name).length) c :=
      ⟨hcp, rfl, bytesAt_mid (post := ((cs ++ [x]).map Rec.toRR).flatMap RR.enc ++ post) (by rw [hc]; simp)⟩
    have h32 : BytesAt s.mem (pre.length + (encName c.name).length + 4) (be32 c.ttl) := by
      have h2 := bytesAt_right (bytesAt_right hh.rest)
      rw [be16_length, hcp.ok.cls] at h2
      exact bytesAt_left h2
    have h16 := bytesAt_left hh.rest
    have hle := bytesAt_le h32 (by rw [be32_length]; omega)
    rw [be32_length] at hle
    have hd := hh.data
    rw [hrd] at hd
    have hle2 := bytesAt_le hd (by simp [encName])
    have ih := ttlChain_of hs hx cs (pre ++ c.toRR.enc) post (fun r hr => hp r (by simp at hr ⊢; tauto))
      (fun r hr => h5 r (by simp [hr])) (by rw [hc]; simp)
    have he : (pre ++ c.toRR.enc).length = pre.length + (encName c.name).length + 10 + (encName c.target).length := by
      rw [List.length_append, enc_len hcp.ok]
      simp only [RR.size, Rec.toRR, hrd]; omega
    rw [he] at ih
    have := TtlChain.alias (nameEnd_plain hs hh.nameAt (nameOk_length hcp.name)) (by simp only [] at hle ⊢; omega)
      (by rw [numAt_be16 h16 hcp.ok.type]; exact hct) (nameEnd_plain hs (hh.targetAt (.inr hct)) (nameOk_length htn)) hle2 ih
    rw [numAt_be32 h32 hcp.ok.ttl] at this
    exact this

/-- How long an answer is kept whose lifetimes are `ts`: the least of them, at least a minute and at most a year, within
the bounds of the configuration, and no longer than `most` if that is positive. -/
def lifetime (cfg : Times) (most : Int) (ts : List Nat) : Int :=
  let t := within cfg.min cfg.max (Nat.max 60 (least 31536000 ts) : Nat)
  if most > 0 then min most t else t

theorem clamp_eq (cfg : Times) (most : Int) {t : Nat} (ht : 60 ≤ t) :
    (let ttl := if (t : Int) < 30 then 30 else (t : Int)
     let ttl := if ttl < cfg.min then cfg.min else ttl
     let ttl := if ttl > cfg.max then cfg.max else ttl
     if most > 0 ∧ ttl > most then most else ttl) =
    (let w := within cfg.min cfg.max t
     if most > 0 then min most w else w) := by
  have hx : (60 : Int) ≤ t := by omega
  revert hx
  generalize (t : Int) = x
  intro hx
  have e1 : (if x < 30 then 30 else x) = x := if_neg (by omega)
  have e2 : max 30 x = x := by simp only [Int.max_def]; omega
  have e3 : (if x < cfg.min then cfg.min else x) = max cfg.min x := by simp only [Int.max_def]; split_ifs <;> omega
  have e4 : ∀ y : Int, (if y > cfg.max then cfg.max else y) = min cfg.max y := by
    intro y; simp only [Int.min_def]; split_ifs <;> omega
  have e5 : ∀ z : Int, (if most > 0 ∧ z > most then most else z) = if most > 0 then min most z else z := by
    intro z; simp only [Int.min_def]; split_ifs <;> omega
  simp only [within, e1, e2, e3, e4, e5]

theorem doneTtl_eq (cfg : Times) {answer : DwStr} {p : Answers} (hr : Reply answer p) {cs : List Rec} {x : Rec} {rest : List Rec}
    (han : p.an = cs ++ x :: rest) (h5 : ∀ r ∈ cs, r.type = 5) (hx : x.type ≠ 5)
    (ht : ∀ r ∈ cs ++ [x], r.ttl < 2147483648) (most : Int) :
    doneTtl cfg answer p.an.length most = .ok (lifetime cfg most (cs.map Rec.ttl ++ [x.ttl])) := by
  have hpl : ∀ r ∈ cs ++ [x], r.Plain := fun r h => hr.recs r (by
    simp only [Answers.all, han]; simp at h ⊢; tauto)
  have hch := ttlChain_of hr.usable hx cs [] ((((rest ++ p.ns ++ p.ar).map Rec.toRR).flatMap RR.enc ++
        (offsets 0 p.packed.all).flatMap Packed.cell ++
        be16 p.packed.an.length ++ be16 p.packed.ns.length ++ be16 p.packed.ar.length ++ [p.packed.kind])) hpl h5 (by
      rw [hr.contents, Packed.enc, packed_all]; simp [Answers.all, han])
  have h := getADnsttl_chain hr.usable hch (by
    intro t hm
    simp only [List.mem_append, List.mem_map, List.mem_singleton] at hm
    rcases hm with ⟨r, h1, rfl⟩ | rfl
    · exact ht r (by simp [h1])
    · exact ht x (by simp)) p.an.length 31536000 (by rw [han]; simp) (by omega) (by omega)
  rw [List.length_nil] at h
  have h60 : 60 ≤ Nat.max 60 (least 31536000 (cs.map Rec.ttl ++ [x.ttl])) := Nat.le_max_left _ _
  unfold lifetime
  revert h h60
  generalize Nat.max 60 (least 31536000 (cs.map Rec.ttl ++ [x.ttl])) = t
  intro h h60
  unfold doneTtl
  rw [h]
  exact congrArg Res.ok (clamp_eq cfg most h60)

theorem answer_count {answer : DwStr} {p : Answers} (hr : Reply answer p) : answer.fetchU16 (-6) = .ok p.an.length := by
  have hc : answer.contents = (p.packed.all.flatMap RR.enc ++ (offsets 0 p.packed.all).flatMap Packed.cell) ++
      be16 p.packed.an.length ++ (be16 p.packed.ns.length ++ be16 p.packed.ar.length ++ [p.packed.kind]) := by
    rw [hr.contents, Packed.enc]; simp
  have hl : p.packed.an.length = p.an.length := by simp [Answers.packed]
  have hlt : p.an.length < 65536 := by
    have h1 := count_le p.packed.all
    have h2 := hr.packed.size
    rw [packed_all] at h1 h2
    simp [Answers.all] at h1 h2
    omega
  rw [hl] at hc
  have hf := fetchU16_at hr.usable (bytesAt_mid hc) hlt
  have hlen := congrArg List.length hc
  simp only [List.length_append, be16_length, List.length_singleton] at hlen
  have hin := fetchU16_in hr.usable _ (show (p.packed.all.flatMap RR.enc ++ (offsets 0 p.packed.all).flatMap Packed.cell).length + 1 <
    answer.contents.length by rw [List.length_append]; omega)
  rw [← hf, hin.1, ← hin.2]
  congr 1
  rw [List.length_append]
  omega

theorem lifetime_range (cfg : Times) (h30 : 30 ≤ cfg.max) (hmax : cfg.max < 4294967296) (most : Int) (ts : List Nat) :
    0 ≤ lifetime cfg most ts ∧ lifetime cfg most ts < 4294967296 := by
  unfold lifetime within
  generalize Nat.max 60 (least 31536000 ts) = t
  have h1 : (30 : Int) ≤ max 30 (t : Int) := by omega
  generalize max 30 (t : Int) = x at *
  have h2 : (30 : Int) ≤ max cfg.min x := by omega
  generalize max cfg.min x = y at *
  have h3 : (30 : Int) ≤ min cfg.max y ∧ min cfg.max y < 4294967296 := by omega
  simp only
  generalize min cfg.max y = z at *
  split_ifs <;> omega

theorem links_sizes (t u : Nat) : ∀ (bs : List (List (List UInt8))) (a : List (List UInt8)),
    sizes ((links t a bs).map Rec.toRR) = sizes ((links u a bs).map Rec.toRR)
  | [], _ => rfl
  | b :: bs, a => by simp only [links, List.map_cons, sizes_cons, aliasRec_size, links_sizes t u bs b]

theorem keptSize_ttl (t u : Nat) (a : List (List UInt8)) (bs : List (List (List UInt8))) (rs : List Rec) :
    keptSize (links t a bs ++ rs) = keptSize (links u a bs ++ rs) := by
  unfold keptSize
  simp only [List.map_append, sizes_append, List.length_append, links_length, links_sizes t u]

/-! ### C107: the answer for an alias -/

/-- C107.  From the aliases kept for a name and from the answer kept for the name they lead to, the answer for the name is
made: one record for each alias, in order, and the records of the answer, as they are.  This holds for up to twelve
aliases, fifteen records, and 1020 bytes.  It is kept as long as the answer. -/
theorem alias_answer (cfg : Times) (h30 : 30 ≤ cfg.max) (hmax : cfg.max < 4294967296)
    {query action answer : DwStr} {qs : List (List UInt8)} {qtype : Nat} {as : List Rec} {p : Answers}
    (h : Kept query action answer qs qtype as p) (hk : p.kind = 0)
    {cs : List Rec} {x : Rec} {rest : List Rec} (han : p.an = cs ++ x :: rest) (h5 : ∀ r ∈ cs, r.type = 5) (hx : x.type ≠ 5)
    (ht : ∀ r ∈ cs ++ [x], r.ttl < 2147483648) (h12 : as.length ≤ 12) (h15 : as.length + p.an.length ≤ 15)
    (hsize : keptSize (links 0 qs (as.map Rec.target) ++ p.an) ≤ 1020) (most : Int) (junk : List UInt8) :
    makeReply cfg query action answer most junk = .ok ⟨encName qs ++ be16 qtype,
      (onlyAnswers (links (lifetime cfg most (cs.map Rec.ttl ++ [x.ttl])).toNat qs (as.map Rec.target) ++ p.an)).packed.enc,
      lifetime cfg most (cs.map Rec.ttl ++ [x.ttl])⟩ := by
  have hne : p.an ≠ [] := by rw [han]; simp
  have hpos := List.length_pos_iff.2 hne
  obtain ⟨t0, t9⟩ := lifetime_range cfg h30 hmax most (cs.map Rec.ttl ++ [x.ttl])
  unfold makeReply
  rw [answer_count h.reply]
  simp only [Res.ok_bind]
  rw [if_neg (by omega), doneTtl_eq cfg h.reply han h5 hx ht most]
  simp only [Res.ok_bind]
  generalize lifetime cfg most (cs.map Rec.ttl ++ [x.ttl]) = ttl at *
  have htold : told ttl qs as = links ttl.toNat qs (as.map Rec.target) := by
    unfold told; rw [List.take_of_length_le (by simpa using h12)]
  have hsz : keptSize (links ttl.toNat qs (as.map Rec.target) ++ p.an) ≤ 1020 := by
    rw [keptSize_ttl ttl.toNat 0]; exact hsize
  have hll : (links ttl.toNat qs (as.map Rec.target)).length = as.length := by rw [links_length]; simp
  have hc := created h hk hne t0 t9 junk
  rw [htold] at hc
  obtain ⟨v, v1, -, v3, v4⟩ := hc.1 (by
    unfold keptSize at hsz
    rw [List.map_append, sizes_append] at hsz
    omega)
  obtain ⟨v5, v6⟩ := v3 (by omega) (by omega)
  rw [v4, if_neg (by omega)]
  simp only [Res.ok_bind]
  rw [v5, h.asks.contents]

/-- C107.  Whatever the number of aliases and the sizes: nothing is made, or an answer with the first twelve aliases and as
many records of the answer, from the first on, as there is room for (fifteen records, 1023 bytes) — or, with two aliases
or more, memory is used that has been given back. -/
theorem alias_cases_partial (cfg : Times) (h30 : 30 ≤ cfg.max) (hmax : cfg.max < 4294967296)
    {query action answer : DwStr} {qs : List (List UInt8)} {qtype : Nat} {as : List Rec} {p : Answers}
    (h : Kept query action answer qs qtype as p) (hk : p.kind = 0)
    {cs : List Rec} {x : Rec} {rest : List Rec} (han : p.an = cs ++ x :: rest) (h5 : ∀ r ∈ cs, r.type = 5) (hx : x.type ≠ 5)
    (ht : ∀ r ∈ cs ++ [x], r.ttl < 2147483648) (most : Int) (junk : List UInt8) :
    let ttl := lifetime cfg most (cs.map Rec.ttl ++ [x.ttl])
    let ls := links ttl.toNat qs ((as.map Rec.target).take 12)
    makeReply cfg query action answer most junk = .err ∨
    (2 ≤ as.length ∧ makeReply cfg query action answer most junk = .ub) ∨
    ∃ m, m ≤ p.an.length ∧ (m = p.an.length ∨ ls.length + m = 15 ∨ 1023 < keptSize (ls ++ p.an.take (m + 1))) ∧
      makeReply cfg query action answer most junk =
        .ok ⟨encName qs ++ be16 qtype, (onlyAnswers (ls ++ p.an.take m)).packed.enc, ttl⟩ := by
  have hne : p.an ≠ [] := by rw [han]; simp
  have hpos := List.length_pos_iff.2 hne
  obtain ⟨t0, t9⟩ := lifetime_range cfg h30 hmax most (cs.map Rec.ttl ++ [x.ttl])
  simp only
  unfold makeReply
  rw [answer_count h.reply]
  simp only [Res.ok_bind]
  rw [if_neg (by omega), doneTtl_eq cfg h.reply han h5 hx ht most]
  simp only [Res.ok_bind]
  generalize lifetime cfg most (cs.map Rec.ttl ++ [x.ttl]) = ttl at *
  have hc := created h hk hne t0 t9 junk
  by_cases hs : sizes ((told ttl qs as).map Rec.toRR) ≤ 1020
  · obtain ⟨v, v1, v2, -, v4⟩ := hc.1 hs
    rw [v4]
    by_cases hl : v.len > 1020
    · rw [if_pos hl]
      by_cases h2 : 2 ≤ as.length
      · rw [if_pos h2]
        exact .inr (.inl ⟨h2, rfl⟩)
      · rw [if_neg h2]
        exact .inl rfl
    · rw [if_neg hl]
      rcases v2 with hbad | ⟨m, m1, m2, m3⟩
      · exact absurd hbad hl
      · refine .inr (.inr ⟨m, m1, m3, ?_⟩)
        simp only [Res.ok_bind]
        rw [m2, h.asks.contents]
        rfl
  · rw [hc.2 (by omega)]
    exact .inl rfl

/-- C107.  With one alias, memory that has been given back is never used. -/
theorem alias_one_safe (cfg : Times) (h30 : 30 ≤ cfg.max) (hmax : cfg.max < 4294967296)
    {query action answer : DwStr} {qs : List (List UInt8)} {qtype : Nat} {r : Rec} {p : Answers}
    (h : Kept query action answer qs qtype [r] p) (hk : p.kind = 0)
    {cs : List Rec} {x : Rec} {rest : List Rec} (han : p.an = cs ++ x :: rest) (h5 : ∀ r ∈ cs, r.type = 5) (hx : x.type ≠ 5)
    (ht : ∀ r ∈ cs ++ [x], r.ttl < 2147483648) (most : Int) (junk : List UInt8) :
    makeReply cfg query action answer most junk ≠ .ub := by
  rcases alias_cases_partial cfg h30 hmax h hk han h5 hx ht most junk with e | ⟨e, -⟩ | ⟨m, -, -, e⟩
  · rw [e]; simp
  · simp at e
  · rw [e]; simp

/-- C107.  What the client is told: if the aliases and the records take at most 450 bytes, with one more for each name, the
packet made for the client carries them, in order, under the question as the client wrote it. -/
theorem alias_told (cfg : Times) (h30 : 30 ≤ cfg.max) (hmax : cfg.max < 4294967296)
    {query action answer : DwStr} {qn : List (List UInt8)} {qtype : Nat} {as : List Rec} {p : Answers}
    (h : Kept query action answer (qn.map (List.map lower)) qtype as p) (hk : p.kind = 0)
    {cs : List Rec} {x : Rec} {rest : List Rec} (han : p.an = cs ++ x :: rest) (h5 : ∀ r ∈ cs, r.type = 5) (hx : x.type ≠ 5)
    (ht : ∀ r ∈ cs ++ [x], r.ttl < 2147483648) (h12 : as.length ≤ 12) (h15 : as.length + p.an.length ≤ 15)
    (hsize : keptSize (links 0 (qn.map (List.map lower)) (as.map Rec.target) ++ p.an) ≤ 1020) (most : Int) (junk : List UInt8)
    {told : List Rec} (htold : told = links (lifetime cfg most (cs.map Rec.ttl ++ [x.ttl])).toNat (qn.map (List.map lower))
      (as.map Rec.target) ++ p.an) (hok : AnsOk (onlyAnswers told)) (hroom : (told.map Rec.room).sum ≤ 450)
    {q' : DwStr} (hq' : Usable q') (hqc' : q'.contents = asked qn qtype) (hqn : LabelsOk qn) (hql : qn.length < 128)
    (hq2 : (encName qn).length ≤ 255) (id : Fin 65536) :
    ∃ e, makeReply cfg query action answer most junk = .ok e ∧ ∀ v, Usable v → v.contents = e.value →
      ∃ o, compress query v junk = .ok o ∧ ∃ pk u, makePacket q' o id.val junk = .ok (pk, u) ∧
        ((told.map Rec.room).sum + (encName qn).length + 16 < 515 → pk.isSome) ∧
        ∀ c, pk = some c → ∃ m : Msg, m.Is c.contents ∧ Carries m id qn qtype (onlyAnswers told) := by
  refine ⟨_, alias_answer cfg h30 hmax h hk han h5 hx ht h12 h15 hsize most junk, fun v v1 v2 => ?_⟩
  have hall : (onlyAnswers told).all = told := by simp [onlyAnswers, Answers.all]
  obtain ⟨o, e1, -, pk, u, e2, e3, e4⟩ := answer_message h.asks.usable hq' v1 junk hqn hql h.asks.contents hqc' hq2 id hok
    (by rw [htold]; exact v2) (by rw [hall]; exact hroom)
  rw [hall] at e3
  exact ⟨o, e1, pk, u, e2, e3, e4⟩

theorem nameOk_lower {n : List (List UInt8)} (h : Spec.NameOk n) : Spec.NameOk (n.map (List.map lower)) := by
  refine ⟨?_, ?_⟩
  · intro l hl
    obtain ⟨x, hx, rfl⟩ := List.mem_map.1 hl
    simpa using h.1 x hx
  · rw [encName_lower_length]; exact h.2

/-- C107.  From the questions to the answer.  If the reply to the question for a name has aliases that lead elsewhere, the
aliases are kept and the name they lead to is asked for; if the reply to that has an answer, that is kept; and from the two,
wherever they are kept, the answer is made for the name that was asked for first. -/
theorem alias_run (cfg : Times) (h30 : 30 ≤ cfg.max) (hmax : cfg.max < 4294967296)
    {ns : DwStr} {bs : List (List UInt8)} (hs : Servers ns bs) (hctl : ∀ l ∈ bs, ∀ x ∈ l, 32 ≤ x.toNat)
    {query inp : DwStr} {qs : List (List UInt8)} {qtype : Nat} (hq : Asks query qs qtype) (hqs : Readable qs)
    (h5 : qtype ≠ 5) (h255 : qtype ≠ 255)
    {p : Answers} (hr : Reply inp p) (hk : p.kind ≠ 2) {cs rest : List Rec} (han : p.an = cs ++ rest)
    (hch : Chain qs cs) (hrest : ∀ r ∈ rest, r.type ≠ 5) {as : List Rec} {r : Rec}
    (has : believed bs qs qtype rest qs cs = as ++ [r]) (hno : ∀ x ∈ as ++ [r], x.type ≠ qtype)
    (hfit : ((as ++ [r]).flatMap aliasEntry).length ≤ 253) (hnames : ∀ x ∈ as ++ [r], Readable x.target)
    {ns' : DwStr} {bs' : List (List UInt8)} (hs' : Servers ns' bs') (hctl' : ∀ l ∈ bs', ∀ x ∈ l, 32 ≤ x.toNat)
    {query' inp' : DwStr} (hu' : Usable query')
    (hq' : query'.contents = encName (r.target.map (List.map lower)) ++ be16 qtype)
    {p' : Answers} (hr' : Reply inp' p') (hk' : p'.kind ≠ 2) {cs' rest' : List Rec} (han' : p'.an = cs' ++ rest')
    (hch' : Chain (r.target.map (List.map lower)) cs') (hrest' : ∀ r ∈ rest', r.type ≠ 5)
    {fs : List Rec} {x : Rec} {gs : List Rec}
    (hb' : believed bs' (r.target.map (List.map lower)) qtype rest' (r.target.map (List.map lower)) cs' = fs ++ x :: gs)
    (hfs : ∀ r ∈ fs, r.type = 5) (hx : x.type = qtype)
    (hcls' : ∀ r ∈ p'.an, r.cls = [0, 1]) (h7 : cs' = [] → rest'.length ≤ 7) (h32 : p'.an.length ≤ 32)
    (ht : ∀ r ∈ fs ++ [x], r.ttl < 2147483648) (h12 : (as ++ [r]).length ≤ 12)
    (h15 : (as ++ [r]).length + (fs ++ x :: gs).length ≤ 15)
    (hsize : keptSize (links 0 qs ((as ++ [r]).map Rec.target) ++ (fs ++ x :: gs)) ≤ 1020)
    (ttl ttl' most : Int) (up : Bool) (junk : List UInt8) :
    ∃ t t', cacheReply cfg ns false query inp ttl junk =
        .ok ⟨[⟨encName qs ++ be16 65394, Spec.aliases (as ++ [r]), t⟩], none, some query'.contents⟩ ∧
      cacheReply cfg ns' up query' inp' ttl' junk =
        .ok ⟨[⟨query'.contents, (onlyAnswers (fs ++ x :: gs)).packed.enc, t'⟩], none, none⟩ ∧
      ∀ action answer, Usable action → action.contents = Spec.aliases (as ++ [r]) → Usable answer →
        answer.contents = (onlyAnswers (fs ++ x :: gs)).packed.enc →
        makeReply cfg query action answer most junk = .ok ⟨encName qs ++ be16 qtype,
          (onlyAnswers (links (lifetime cfg most (fs.map Rec.ttl ++ [x.ttl])).toNat qs ((as ++ [r]).map Rec.target) ++
            (fs ++ x :: gs))).packed.enc, lifetime cfg most (fs.map Rec.ttl ++ [x.ttl])⟩ := by
  obtain ⟨t, e1⟩ := alias_exact cfg hs hctl hq h5 h255 hr hk han hch hrest has hno hfit (hnames r (by simp)).2 ttl junk
  have hasks : Asks query' (r.target.map (List.map lower)) qtype := ⟨hu', nameOk_lower (hnames r (by simp)).1, hq.type, hq'⟩
  have e2 := answer_exact cfg hs' hctl' up hasks h5 h255 hr' hk' han' hch' hrest' ⟨x, by rw [hb']; simp, hx⟩ hcls' h7 h32 ttl' junk
  rw [hb', ← hq'] at e2
  rw [← hq'] at e1
  refine ⟨t, _, e1, e2, fun action answer a1 a2 a3 a4 => ?_⟩
  have hsub : ∀ y ∈ fs ++ x :: gs, y ∈ p'.an := by
    intro y h
    rw [← hb', ← keep_chain, ← han'] at h
    exact (keep_sublist _ _).subset h
  have hkept : Kept query action answer qs qtype (as ++ [r]) (onlyAnswers (fs ++ x :: gs)) := by
    refine ⟨hq, hqs, a1, a2, by simp, hnames, hfit, a3, a4, ?_, ?_, .inl rfl, by simp [onlyAnswers, Answers.all]⟩
    · intro y hy
      simp only [onlyAnswers, Answers.all, List.append_nil] at hy
      exact hr'.recs y (by simp only [Answers.all, List.mem_append]; exact .inl (.inl (hsub y hy)))
    · unfold keptSize at hsize
      rw [List.map_append, sizes_append] at hsize
      simp only [onlyAnswers, Answers.all, List.append_nil]
      omega
  exact alias_answer cfg h30 hmax hkept rfl rfl hfs (by omega) ht h12 h15 hsize most junk

/-! ### Findings -/

/-- Finding.  With two aliases or more, and an answer that takes 1021 to 1023 bytes with them, the memory of the last alias
is used, and to be given back again, after it has been given back.  (Whoever serves the two names chooses the sizes.) -/
theorem alias_used_after (cfg : Times) (h30 : 30 ≤ cfg.max) (hmax : cfg.max < 4294967296)
    {query action answer : DwStr} {qs : List (List UInt8)} {qtype : Nat} {as : List Rec} {p : Answers}
    (h : Kept query action answer qs qtype as p) (hk : p.kind = 0)
    {cs : List Rec} {x : Rec} {rest : List Rec} (han : p.an = cs ++ x :: rest) (h5 : ∀ r ∈ cs, r.type = 5) (hx : x.type ≠ 5)
    (ht : ∀ r ∈ cs ++ [x], r.ttl < 2147483648) (h2 : 2 ≤ as.length) (h12 : as.length ≤ 12) (h15 : as.length + p.an.length ≤ 15)
    (hsize : 1021 ≤ keptSize (links 0 qs (as.map Rec.target) ++ p.an))
    (hsize' : keptSize (links 0 qs (as.map Rec.target) ++ p.an) ≤ 1023) (most : Int) (junk : List UInt8) :
    makeReply cfg query action answer most junk = .ub := by
  have hne : p.an ≠ [] := by rw [han]; simp
  have hpos := List.length_pos_iff.2 hne
  obtain ⟨t0, t9⟩ := lifetime_range cfg h30 hmax most (cs.map Rec.ttl ++ [x.ttl])
  unfold makeReply
  rw [answer_count h.reply]
  simp only [Res.ok_bind]
  rw [if_neg (by omega), doneTtl_eq cfg h.reply han h5 hx ht most]
  simp only [Res.ok_bind]
  generalize lifetime cfg most (cs.map Rec.ttl ++ [x.ttl]) = ttl at *
  have htold : told ttl qs as = links ttl.toNat qs (as.map Rec.target) := by
    unfold told; rw [List.take_of_length_le (by simpa using h12)]
  have hsz : keptSize (links ttl.toNat qs (as.map Rec.target) ++ p.an) = keptSize (links 0 qs (as.map Rec.target) ++ p.an) :=
    keptSize_ttl _ _ _ _ _
  have hll : (links ttl.toNat qs (as.map Rec.target)).length = as.length := by rw [links_length]; simp
  have hc := created h hk hne t0 t9 junk
  rw [htold] at hc
  obtain ⟨v, v1, -, v3, v4⟩ := hc.1 (by
    rw [← hsz] at hsize'
    unfold keptSize at hsize'
    rw [List.map_append, sizes_append] at hsize'
    simp only [List.length_append] at hsize'
    omega)
  obtain ⟨v5, v6⟩ := v3 (by omega) (by omega)
  rw [v4, if_pos (by omega), if_pos h2]
  rfl

/-- Finding.  If there is no such name at the end of the aliases, or no such record, nothing is made: whoever asked is told
nothing at all. -/
theorem alias_denied (cfg : Times) (query action : DwStr) {answer : DwStr} {p : Answers} (hr : Reply answer p) (hno : p.an = [])
    (most : Int) (junk : List UInt8) : makeReply cfg query action answer most junk = .err := by
  unfold makeReply
  rw [answer_count hr, hno]
  rfl

/-! ### Examples -/

/-- w.a.e is an alias for x.a.e, and that for bank.f. -/
def exAs : List Rec := [exAlias exW exX, exAlias exX exBank]

theorem exKept : Kept exQuery (ofBytes (Spec.aliases exAs)) (ofBytes (onlyAnswers [exA exBank [1, 2, 3, 4], exA exBank [5, 6, 7, 8]]).packed.enc)
    exW 1 exAs (onlyAnswers [exA exBank [1, 2, 3, 4], exA exBank [5, 6, 7, 8]]) where
  asks := exQuery_asks
  name := by unfold Readable Spec.NameOk LabelsOk; decide
  usable := ofBytes_usable (by decide)
  aliases := ofBytes_contents _
  some := by decide
  names := by unfold Readable Spec.NameOk LabelsOk; decide
  short := by decide
  reply := reply_of _ (by decide +kernel) (by decide +kernel) (by decide) (by decide) (by decide +kernel)

example : makeReply exTimes exQuery (ofBytes (Spec.aliases exAs))
    (ofBytes (onlyAnswers [exA exBank [1, 2, 3, 4], exA exBank [5, 6, 7, 8]]).packed.enc) 0 [] =
    .ok ⟨encName exW ++ be16 1, (onlyAnswers [exAlias exW exX, exAlias exX exBank, exA exBank [1, 2, 3, 4],
      exA exBank [5, 6, 7, 8]]).packed.enc, 60⟩ :=
  alias_answer exTimes (by decide) (by decide) exKept rfl (cs := []) rfl (by decide) (by decide) (by decide) (by decide) (by decide)
    (by decide +kernel) 0 []

example := alias_cases_partial exTimes (by decide) (by decide) exKept rfl (cs := []) rfl (by decide) (by decide) (by decide) 0 []

/-- What is told to a client that asked for `W.A.E`. -/
example : ∃ e, makeReply exTimes exQuery (ofBytes (Spec.aliases exAs))
      (ofBytes (onlyAnswers [exA exBank [1, 2, 3, 4], exA exBank [5, 6, 7, 8]]).packed.enc) 0 [] = .ok e ∧
    ∀ v, Usable v → v.contents = e.value → ∃ o, compress exQuery v [] = .ok o ∧
      ∃ c u, makePacket (ofBytes (asked [[87], [65], [69]] 1)) o 7 [] = .ok (some c, u) ∧
        ∃ m : Msg, m.Is c.contents ∧ Carries m 7 [[87], [65], [69]] 1
          (onlyAnswers [exAlias exW exX, exAlias exX exBank, exA exBank [1, 2, 3, 4], exA exBank [5, 6, 7, 8]]) := by
  obtain ⟨e, e1, e2⟩ := alias_told exTimes (by decide) (by decide) (qn := [[87], [65], [69]]) exKept rfl (cs := [])
    (x := exA exBank [1, 2, 3, 4]) (rest := [exA exBank [5, 6, 7, 8]]) rfl (by decide)
    (by decide) (by decide) (by decide) (by decide) (by decide +kernel) 0 []
    (told := [exAlias exW exX, exAlias exX exBank, exA exBank [1, 2, 3, 4], exA exBank [5, 6, 7, 8]]) rfl
    ⟨by decide, fun r hr => by
      simp only [onlyAnswers, Answers.all, List.append_nil, List.mem_cons, List.not_mem_nil, or_false] at hr
      rcases hr with rfl | rfl | rfl | rfl <;>
        exact ⟨⟨by decide, by decide, by decide, by decide, by decide⟩, ⟨by unfold LabelsOk; decide, by decide, noRepeat_of_nodup (by decide)⟩,
          fun n hn => by
            simp only [exAlias, exA, List.mem_cons, List.not_mem_nil, or_false] at hn
            try subst hn; exact ⟨by unfold LabelsOk; decide, by decide, noRepeat_of_nodup (by decide)⟩⟩, .inl rfl, by decide +kernel⟩ (by decide)
    (q' := ofBytes (asked [[87], [65], [69]] 1)) (ofBytes_usable (by decide)) (ofBytes_contents _) (by unfold LabelsOk; decide)
    (by decide) (by decide) 7
  refine ⟨e, e1, fun v v1 v2 => ?_⟩
  obtain ⟨o, g1, pk, u, g2, g3, g4⟩ := e2 v v1 v2
  obtain ⟨c, rfl⟩ := Option.isSome_iff_exists.1 (g3 (by decide))
  exact ⟨o, g1, c, u, g2, g4 c rfl⟩

/-- One alias. -/
theorem exKept' : Kept exQuery (ofBytes (Spec.aliases [exAlias exW exBank])) (ofBytes (onlyAnswers [exA exBank [1, 2, 3, 4]]).packed.enc)
    exW 1 [exAlias exW exBank] (onlyAnswers [exA exBank [1, 2, 3, 4]]) where
  asks := exQuery_asks
  name := by unfold Readable Spec.NameOk LabelsOk; decide
  usable := ofBytes_usable (by decide)
  aliases := ofBytes_contents _
  some := by decide
  names := by unfold Readable Spec.NameOk LabelsOk; decide
  short := by decide
  reply := reply_of _ (by decide +kernel) (by decide +kernel) (by decide) (by decide) (by decide +kernel)

example := alias_one_safe exTimes (by decide) (by decide) exKept' rfl (cs := []) rfl (by decide) (by decide) (by decide) 0 []

/-- A name of 64 bytes. -/
def exLong : List (List UInt8) := [List.replicate 60 97, [102]]
/-- w.a.e is an alias for x.a.e, and that for the long name, which has eleven addresses. -/
def exAs' : List Rec := [exAlias exW exX, exAlias exX exLong]
def exMany : List Rec := List.replicate 11 (exA exLong [1, 2, 3, 4])

theorem exKeptMany : Kept exQuery (ofBytes (Spec.aliases exAs')) (ofBytes (onlyAnswers exMany).packed.enc)
    exW 1 exAs' (onlyAnswers exMany) where
  asks := exQuery_asks
  name := by unfold Readable Spec.NameOk LabelsOk; decide
  usable := ofBytes_usable (by decide +kernel)
  aliases := ofBytes_contents _
  some := by decide
  names := by unfold Readable Spec.NameOk LabelsOk; decide +kernel
  short := by decide +kernel
  reply := reply_of _ (by decide +kernel) (by decide +kernel) (by decide) (by decide) (by decide +kernel)

/-- Such an answer makes the program use memory it has given back. -/
theorem alias_used_after_witness : makeReply exTimes exQuery (ofBytes (Spec.aliases exAs'))
    (ofBytes (onlyAnswers exMany).packed.enc) 0 [] = .ub :=
  alias_used_after exTimes (by decide) (by decide) exKeptMany rfl (cs := []) (x := exA exLong [1, 2, 3, 4])
    (rest := List.replicate 10 (exA exLong [1, 2, 3, 4])) rfl (by decide) (by decide) (by decide) (by decide) (by decide)
    (by decide) (by decide +kernel) (by decide +kernel) 0 []

example : makeReply exTimes exQuery (ofBytes (Spec.aliases exAs)) (ofBytes exDenial.packed.enc) 0 [] = .err :=
  alias_denied exTimes _ _ exDenial_reply rfl 0 []

/-- The reply to the question for the address of bank.f. -/
def exBanks : Answers := ⟨[exA exBank [7, 7, 7, 7]], [], [], 0⟩

theorem exBanks_reply : Reply (ofBytes exBanks.packed.enc) exBanks := reply_of _ (by decide +kernel) (by decide +kernel) (by decide) (by decide) (by decide +kernel)

/-- The servers of f. -/
def exServersF : DwStr := ofBytes (encName [[102]] ++ [1, 10, 0, 0, 2, 0, 3, 1, 16])

/-- The servers of e say that w.a.e is bank.f, and that bank.f is 6.6.6.6; those of f say that it is 7.7.7.7. -/
example : ∃ t t', cacheReply exTimes exServers false exQuery (ofBytes exAway.packed.enc) 60 [] =
      .ok ⟨[⟨encName exW ++ be16 65394, Spec.aliases [exAlias exW exBank], t⟩], none, some (ofBytes (encName exBank ++ be16 1)).contents⟩ ∧
    cacheReply exTimes exServersF false (ofBytes (encName exBank ++ be16 1)) (ofBytes exBanks.packed.enc) 60 [] =
      .ok ⟨[⟨(ofBytes (encName exBank ++ be16 1)).contents, (onlyAnswers [exA exBank [7, 7, 7, 7]]).packed.enc, t'⟩], none, none⟩ ∧
    ∀ action answer, Usable action → action.contents = Spec.aliases [exAlias exW exBank] → Usable answer →
      answer.contents = (onlyAnswers [exA exBank [7, 7, 7, 7]]).packed.enc →
      makeReply exTimes exQuery action answer 0 [] = .ok ⟨encName exW ++ be16 1,
        (onlyAnswers [exAlias exW exBank, exA exBank [7, 7, 7, 7]]).packed.enc, 60⟩ :=
  alias_run exTimes (by decide) (by decide) exServers_of exCtl exQuery_asks exKept.name (by decide) (by decide) exAway_reply (by decide)
    (cs := [exAlias exW exBank]) (rest := [exA exBank [6, 6, 6, 6]]) rfl (by decide) (by decide) (as := []) (r := exAlias exW exBank)
    (by decide) (by decide) (by decide) exKept'.names
    (ns' := exServersF) (bs' := [[102]]) ⟨ofBytes_usable (by decide), by unfold Spec.NameOk LabelsOk; decide, ⟨_, ofBytes_contents _⟩⟩ (by decide)
    (ofBytes_usable (by decide)) (ofBytes_contents _) exBanks_reply (by decide) (cs' := []) (rest' := [exA exBank [7, 7, 7, 7]]) rfl
    (by decide) (by decide) (fs := []) (x := exA exBank [7, 7, 7, 7]) (gs := []) (by decide) (by decide) rfl (by decide) (by decide)
    (by decide) (by decide) (by decide) (by decide) (by decide +kernel) 60 60 0 false []

end Alias
end Dw
