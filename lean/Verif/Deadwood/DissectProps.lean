import Verif.Deadwood.DissectChain
import Verif.Deadwood.DissectList
import Verif.Deadwood.DecompPacketProps
import Mathlib.Tactic.SplitIfs
/-!
# Properties: what the recursive resolver believes of a reply

`cacheReply cfg ns up query inp ttl junk` is what is done with the reply `inp` to the question `query`
from the servers `ns`.
-/

namespace Dw
namespace Dissect

open DwStr Spec Ns

theorem keepTtl_within (cfg : Times) (ttl : Int) : keepTtl cfg ttl = within cfg.min cfg.max ttl := by
  unfold keepTtl within
  dsimp only
  split <;> split <;> split <;> omega

/-- All that a reply can lead to. -/
theorem cacheReply_cases (cfg : Times) {ns : DwStr} {bs : List (List UInt8)} (hs : Servers ns bs) (up : Bool)
    {query inp : DwStr} {qs : List (List UInt8)} {qtype : Nat} (hq : Asks query qs qtype) {p : Answers} (hr : Reply inp p)
    (ttl : Int) (junk : List UInt8) :
    cacheReply cfg ns up query inp ttl junk = .err ∨
    (∃ a, cacheReply cfg ns up query inp ttl junk =
      .ok ⟨[⟨encName qs ++ be16 qtype, a, within cfg.min cfg.max ttl⟩], none, none⟩) ∨
    (∃ a f, cacheReply cfg ns up query inp ttl junk =
      .ok ⟨[⟨encName qs ++ be16 65394, a, aliasTtl cfg (within cfg.min cfg.max ttl)⟩], none, f⟩) ∨
    (p.an = [] ∧ ∃ z a, (cacheReply cfg ns up query inp ttl junk = .ok ⟨[], some a, none⟩ ∨
        cacheReply cfg ns up query inp ttl junk =
          .ok ⟨[⟨encName z ++ be16 65395, a, referTtl cfg z.length (within cfg.min cfg.max ttl)⟩], some a, none⟩) ∧
      ((longestOf (candidates bs qs (tag 15 p.ns)) none = some z ∧ ∃ x, a = encName z ++ x) ∨ (z = [] ∧ a = [0, 16]))) := by
  rcases cacheReply_zone cfg hs up query inp ttl junk with h | h
  · exact .inl h
  rw [keepTtl_within] at h
  rcases dissect_makes hr hq (nameStr_zone hs.name junk) junk with e | ⟨o, e, ho, hm⟩
  · rw [e] at h; exact .inl h
  rw [e, Res.ok_bind] at h
  rw [h]
  cases hm with
  | answer kept _ _ _ _ eq =>
    rw [finish_answer cfg up query _ junk ho eq (.inl rfl), hq.contents]
    exact .inr (.inl ⟨_, rfl⟩)
  | «alias» cs r _ sub types eq =>
    have hp : ∀ x ∈ cs ++ [r], x.Plain := fun x hx => hr.recs x (by simp [Answers.all, sub.subset hx])
    have h1 := alias_size (cs ++ [r]) hp types
    have h2 := sizes_sublist sub
    have h3 : sizes (p.an.map Rec.toRR) ≤ sizes (p.all.map Rec.toRR) := sizes_sublist (by simp [Answers.all])
    have hsz := hr.size
    have ht : Spec.NameOk r.target := by
      have := (oneName_form (hp r (by simp)) (.inr (types r (by simp))))
      obtain ⟨-, -, h⟩ := this
      exact h
    rcases finish_alias cfg up hq (within cfg.min cfg.max ttl) junk ho ht (by omega) eq with ⟨-, e⟩ | ⟨-, f, e, -⟩
    · exact .inl e
    · exact .inr (.inr (.inl ⟨_, f, e⟩))
  | denial r rest _ _ _ eq =>
    rw [finish_answer cfg up query _ junk ho eq (by unfold negative; dsimp only; split <;> simp), hq.contents]
    exact .inr (.inl ⟨_, rfl⟩)
  | extra r _ _ _ _ eq =>
    rw [finish_answer cfg up query _ junk ho eq (.inl rfl), hq.contents]
    exact .inr (.inl ⟨_, rfl⟩)
  | refer hnone x y z ok zone eq last =>
    rcases finish_refer cfg up query (within cfg.min cfg.max ttl) junk ho ok eq last with ⟨-, e⟩ | ⟨-, e⟩
    · exact .inl e
    · exact .inr (.inr (.inr ⟨hnone, z, o.contents, e, .inl ⟨zone, x, eq⟩⟩))
  | blank hnone eq =>
    have hok : Spec.NameOk [] := ⟨by simp [LabelsOk], by decide⟩
    rcases finish_refer cfg up query (within cfg.min cfg.max ttl) junk ho hok (x := [16]) (y := [0]) eq eq with ⟨-, e⟩ | ⟨-, e⟩
    · exact .inl e
    · exact .inr (.inr (.inr ⟨hnone, [], o.contents, e, .inr ⟨rfl, eq⟩⟩))

/-- A message with compressed names, of at most 255 bytes each, becomes such a reply when it is
decompressed. -/
theorem reply_wire {q msg : DwStr} (hq : Usable q) (hi : Usable msg) (junk : List UInt8) {p : Answers}
    (hok : ∀ r ∈ p.all, r.Plain) {e : Nat} (h : RecsAt msg.mem q.mem msg.len q.len 0 p.all e)
    (ht : msg.contents.drop e = p.trailer) (hf : p.packed.enc.length < 2048)
    (hk : p.kind = 0 ∨ p.kind = 1 ∨ p.kind = 2) (hs : p.all ≠ []) :
    ∃ inp, decompress q msg junk = .ok inp ∧ Reply inp p := by
  obtain ⟨o, e1, e2, e3⟩ := decompress_exact hq hi junk p (fun r hr => (hok r hr).ok) h ht hf
  refine ⟨o, e1, e2, e3, hok, ?_, hk, hs⟩
  have hl : (p.packed.all.flatMap RR.enc).length ≤ p.packed.enc.length := by
    simp only [Packed.enc, List.length_append]; omega
  rw [packed_all, encs_length (fun r hr => by
      obtain ⟨x, hx, rfl⟩ := List.mem_map.1 hr
      exact Rec.toRR_ok (hok x hx).ok)] at hl
  omega

/-! ### C84 -/

/-- C84.  Replies with at most fifteen authority records: what is put in the cache is what may be, and the
servers asked next are those of a zone that may be delegated (or there are none).  Missing: replies with
more authority records, for which it is false (`kept_outside`). -/
theorem kept_inside_partial (cfg : Times) {ns : DwStr} {bs : List (List UInt8)} (hs : Servers ns bs) (up : Bool)
    {query inp : DwStr} {qs : List (List UInt8)} {qtype : Nat} (hq : Asks query qs qtype) {p : Answers} (hr : Reply inp p)
    (few : p.ns.length ≤ 15) (ttl : Int) (junk : List UInt8) {st : Step}
    (h : cacheReply cfg ns up query inp ttl junk = .ok st) :
    (∀ e ∈ st.puts, MayKeep bs qs qtype e.key e.value) ∧
    (∀ l, st.ns = some l → l = [0, 16] ∨ ∃ z x, l = encName z ++ x ∧ MayDelegate bs qs z) := by
  rcases cacheReply_cases cfg hs up hq hr ttl junk with e | ⟨a, e⟩ | ⟨a, f, e⟩ | ⟨-, z, a, e, hz⟩
  · rw [e] at h; cases h
  · rw [e] at h; cases h
    exact ⟨by intro x hx; simp only [List.mem_singleton] at hx; subst hx; exact .inl rfl, by intro l hl; cases hl⟩
  · rw [e] at h; cases h
    exact ⟨by intro x hx; simp only [List.mem_singleton] at hx; subst hx; exact .inr (.inl rfl), by intro l hl; cases hl⟩
  · have hA : a = [0, 16] ∨ ∃ z x, a = encName z ++ x ∧ MayDelegate bs qs z := by
      rcases hz with ⟨h1, x, h2⟩ | ⟨-, h2⟩
      · obtain ⟨-, -, -, -, hd⟩ := candidate_few few h1
        exact .inr ⟨z, x, h2, hd⟩
      · exact .inl h2
    rcases e with e | e
    · rw [e] at h; cases h
      exact ⟨by simp, by intro l hl; cases hl; exact hA⟩
    · rw [e] at h; cases h
      refine ⟨?_, by intro l hl; cases hl; exact hA⟩
      intro x hx
      simp only [List.mem_singleton] at hx
      subst hx
      rcases hz with ⟨h1, x, h2⟩ | ⟨h1, h2⟩
      · obtain ⟨-, -, -, -, hd⟩ := candidate_few few h1
        exact .inr (.inr (.inl ⟨z, hd, rfl⟩))
      · subst h1
        exact .inr (.inr (.inr ⟨rfl, h2⟩))

/-! ### C87 -/

/-- C87.  Nothing undefined happens, whatever the reply says. -/
theorem reply_safe (cfg : Times) {ns : DwStr} {bs : List (List UInt8)} (hs : Servers ns bs) (up : Bool)
    {query inp : DwStr} {qs : List (List UInt8)} {qtype : Nat} (hq : Asks query qs qtype) {p : Answers} (hr : Reply inp p)
    (ttl : Int) (junk : List UInt8) : cacheReply cfg ns up query inp ttl junk ≠ .ub := by
  rcases cacheReply_cases cfg hs up hq hr ttl junk with e | ⟨a, e⟩ | ⟨a, f, e⟩ | ⟨-, z, a, e | e, -⟩ <;> rw [e] <;> simp

/-- C87.  Nothing is kept for longer than `max_ttl` or less than half a minute, nor, unless it says who
serves a zone, for less than `min_ttl`. -/
theorem kept_times (cfg : Times) (h30 : 30 ≤ cfg.max) (hmin : cfg.min ≤ cfg.max) {ns : DwStr} {bs : List (List UInt8)}
    (hs : Servers ns bs) (up : Bool)
    {query inp : DwStr} {qs : List (List UInt8)} {qtype : Nat} (hq : Asks query qs qtype) {p : Answers} (hr : Reply inp p)
    (ttl : Int) (junk : List UInt8) {st : Step} (h : cacheReply cfg ns up query inp ttl junk = .ok st) :
    ∀ e ∈ st.puts, 30 ≤ e.ttl ∧ e.ttl ≤ cfg.max ∧ (st.ns = none → cfg.min ≤ e.ttl) ∧
      (e.key = encName qs ++ be16 qtype → qtype < 65394 → e.ttl = within cfg.min cfg.max ttl) := by
  have hw : 30 ≤ within cfg.min cfg.max ttl ∧ within cfg.min cfg.max ttl ≤ cfg.max ∧ cfg.min ≤ within cfg.min cfg.max ttl := by
    unfold within; omega
  have hkey : ∀ (x y : List UInt8) (n : Nat), n < 65536 → qtype < n → x ++ be16 n = y ++ be16 qtype → False := by
    intro x y n hn hlt he
    have he := (List.append_inj' he (by rw [be16_length, be16_length])).2
    simp only [be16, List.cons.injEq, and_true] at he
    have h1 := congrArg UInt8.toNat he.1
    have h2 := congrArg UInt8.toNat he.2
    simp only [UInt8.toNat_ofNat'] at h1 h2
    omega
  rcases cacheReply_cases cfg hs up hq hr ttl junk with e | ⟨a, e⟩ | ⟨a, f, e⟩ | ⟨-, z, a, e | e, -⟩
  · rw [e] at h; cases h
  · rw [e] at h; cases h
    intro x hx
    simp only [List.mem_singleton] at hx
    subst hx
    exact ⟨hw.1, hw.2.1, fun _ => hw.2.2, fun _ _ => rfl⟩
  · rw [e] at h; cases h
    intro x hx
    simp only [List.mem_singleton] at hx
    subst hx
    have ha : 30 ≤ aliasTtl cfg (within cfg.min cfg.max ttl) ∧ aliasTtl cfg (within cfg.min cfg.max ttl) ≤ cfg.max ∧
        cfg.min ≤ aliasTtl cfg (within cfg.min cfg.max ttl) := by
      unfold aliasTtl
      dsimp only
      split <;> split <;> split <;> split <;> omega
    exact ⟨ha.1, ha.2.1, fun _ => ha.2.2, fun he hlt => (hkey _ _ _ (by omega) hlt he).elim⟩
  · rw [e] at h; cases h
    simp
  · rw [e] at h; cases h
    intro x hx
    simp only [List.mem_singleton] at hx
    subst hx
    have hdiv : ∀ k : Nat, cfg.max / 2 ^ k ≤ cfg.max := fun k => Int.ediv_le_self _ (by omega)
    have hr : 30 ≤ referTtl cfg z.length (within cfg.min cfg.max ttl) ∧ referTtl cfg z.length (within cfg.min cfg.max ttl) ≤ cfg.max := by
      have := hdiv ((z.length : Int) - cfg.reduce).toNat
      unfold referTtl
      dsimp only
      generalize cfg.max / 2 ^ ((z.length : Int) - cfg.reduce).toNat = d at this ⊢
      split_ifs <;> omega
    exact ⟨hr.1, hr.2, (fun h => by cases h), fun he hlt => (hkey _ _ _ (by omega) (by omega) he).elim⟩

/-! ### C85 -/

/-- C85.  A reply that refers to others is followed: the next to be asked are exactly those that the reply
delegates to, with the addresses it has for them, and by name for those without; this is kept for the
longest name that is delegated. -/
theorem referral_exact (cfg : Times) {ns : DwStr} {bs : List (List UInt8)} (hs : Servers ns bs)
    (hctl : ∀ l ∈ bs, ∀ x ∈ l, 32 ≤ x.toNat)
    {query inp : DwStr} {qs : List (List UInt8)} {qtype : Nat} (hq : Asks query qs qtype) {p : Answers} (hr : Reply inp p)
    (hk : p.kind ≠ 2) (han : p.an = []) {r : Rec} {rest : List Rec} (hns : p.ns = r :: rest) (h2 : r.type = 2)
    (few : p.ns.length ≤ 15)
    (hno : ∀ x ∈ p.ar, ¬ (Alike qs x.name ∧ x.type = qtype))
    (hsome : delegations bs qs p.ns ≠ [])
    (haddr : ∀ x ∈ addresses bs qs p.ns p.ar, (x.type = 1 → x.rdata.length = 4) ∧ (x.type = 28 → x.rdata.length = 16))
    {es : List (List UInt8)}
    (hes : es = (addresses bs qs p.ns p.ar).map glueEntry ++ (nameless bs qs p.ns p.ar).map nameEntry)
    (h31 : es.length ≤ 31) (ttl : Int) (junk : List UInt8) :
    ∃ z t, MayDelegate bs qs z ∧ (∃ r ∈ p.ns, r.name = z ∧ (r.type = 2 ∨ r.type = 6)) ∧
      (∀ d ∈ delegations bs qs p.ns, (encName d.name).length ≤ (encName z).length) ∧
      (cacheReply cfg ns false query inp ttl junk =
          .ok ⟨[⟨encName z ++ be16 65395, referral (encName z) es, t⟩], some (referral (encName z) es), none⟩ ∨
        (∃ l ∈ z, ∃ x ∈ l, x.toNat < 32) ∧
          cacheReply cfg ns false query inp ttl junk = .ok ⟨[], some (referral (encName z) es), none⟩) := by
  have hc := cacheReply_zone' cfg hs hctl false query inp ttl junk
  rcases dissect_ns hr hq (nameStr_zone hs.name junk) han hns h2 junk with ⟨pre, x, post, e1, e2, -⟩ |
      ⟨-, look, nsM, arM, T, hv, m1, m2, m3, m4⟩
  · exact absurd e2 (hno x (by rw [e1]; simp))
  rw [if_neg hk] at m4
  have hg := glueOf_eq (ar := p.ar) m3
  have X := (nsRefer_exact hr hv (an := []) m1 m2 (by rw [hg]; exact haddr) junk es
    (by rw [hg, bareOf_eq]; exact hes)).1 h31
  obtain ⟨o, e, ho, hoc⟩ := X
  rw [m4, e, Res.ok_bind] at hc
  have hmem : ∀ d ∈ delegations bs qs p.ns, d ∈ candidates bs qs (tag 15 p.ns) := by
    intro d hd
    unfold delegations at hd
    rw [← tag_filter (fun r => r.Delegates bs qs) 15 p.ns] at hd
    obtain ⟨x, hx, rfl⟩ := List.mem_map.1 hd
    obtain ⟨h1, h3⟩ := List.mem_filter.1 hx
    have h3 := (followed_iff bs qs x).2 (of_decide_eq_true h3)
    unfold candidates
    exact List.mem_map.2 ⟨x, List.mem_filter.2 ⟨h1, decide_eq_true ⟨.inl h3.2.2, fun _ => h3.2.1⟩⟩, rfl⟩
  cases hz : longestOf (candidates bs qs (tag 15 p.ns)) none with
  | none =>
    exfalso
    obtain ⟨d, hd⟩ := List.exists_mem_of_ne_nil _ hsome
    have := hmem d hd
    rw [(longestOf_none _ _ hz).1] at this
    simp at this
  | some z =>
    rw [hz] at hoc
    obtain ⟨r', hr', hn, ht, hmd⟩ := candidate_few few hz
    have hok : Spec.NameOk z := hn ▸ (hr.recs r' (by simp [Answers.all, hr'])).name
    have hoc' : o.contents = encName z ++ (es.flatten ++ (place (encName z).length es).flatMap be16 ++ [UInt8.ofNat es.length, 16]) := by
      rw [hoc]; simp [referral, zoneBytes]
    have hlast : o.contents = (encName z ++ es.flatten ++ (place (encName z).length es).flatMap be16 ++ [UInt8.ofNat es.length]) ++ [16] := by
      rw [hoc]; simp [referral, zoneBytes]
    have hval : o.contents = referral (encName z) es := hoc
    have hlong := (longestOf_ge _ _ hz).1
    refine ⟨z, referTtl cfg z.length (keepTtl cfg ttl), hmd, ⟨r', hr', hn, ht⟩, fun d hd => hlong d (hmem d hd), ?_⟩
    rw [hc]
    by_cases hz32 : ∀ l ∈ z, ∀ x ∈ l, 32 ≤ x.toNat
    · left
      rw [finish_refer' cfg query (keepTtl cfg ttl) junk ho hok hz32 hoc' hlast, hval]
    · have hz32 : ∃ l ∈ z, ∃ x ∈ l, x.toNat < 32 := by
        by_contra hcon
        exact hz32 fun l hl x hx => by
          by_contra hlt
          exact hcon ⟨l, hl, x, hx, by omega⟩
      rcases finish_refer cfg false query (keepTtl cfg ttl) junk ho hok hoc' hlast with ⟨h, -⟩ | ⟨-, h | h⟩
      · cases h
      · right
        rw [h, hval]
        exact ⟨hz32, rfl⟩
      · left
        rw [h, hval]

/-- C85.  The servers asked next are entries of the referral: whichever the resolver chooses, it is one of
the addresses or names in it. -/
theorem referral_asked {list : DwStr} (hl : Usable list) {z : List (List UInt8)} (hz : Spec.NameOk z) {es : List (List UInt8)}
    (h0 : es ≠ []) (h31 : es.length ≤ 31) (hsz : ∀ e ∈ es, e ≠ [] ∧ e.length ≤ 258)
    (h : list.contents = referral (encName z) es) (current : Option Nat) (rnd : List Nat) :
    ∃ i, ∃ hi : i < es.length, ∃ k c, nsGetip list current rnd =
        .ok ((k, ((encName z).length + (es.take i).flatten.length, (es[i].headD 0).toNat)), c) ∧
      ∃ rest, list.contents.drop ((encName z).length + (es.take i).flatten.length) = es[i] ++ rest := by
  have hzl := hz.2
  have hel : (encName z).length = (encLabels z).length + 1 := by simp [encName]
  have hfl := entries_short (fun e he => (hsz e he).2) h31
  have L := referral_lists (zone := encName z) h0 h31 (fun e he => (hsz e he).1) (by omega)
  rw [← h] at L
  obtain ⟨a, ha, c, -, e⟩ := nsGetip_in hl L current rnd
  rw [serversOf_length] at ha
  rw [serversOf_get _ _ a ha] at e
  refine ⟨es.length - 1 - a, by omega, a, c, e, ?_⟩
  have key : ∀ i (hi : i < es.length), ∃ rest,
      list.contents.drop ((encName z).length + (es.take i).flatten.length) = es[i] ++ rest := by
    intro i hlt
    have h1 : es.flatten = (es.take i).flatten ++ (es[i] ++ (es.drop (i + 1)).flatten) := by
      rw [← List.flatten_cons, ← List.drop_eq_getElem_cons hlt, ← List.flatten_append, List.take_append_drop]
    refine ⟨(es.drop (i + 1)).flatten ++ (place (encName z).length es).flatMap be16 ++ [UInt8.ofNat es.length, 16], ?_⟩
    rw [h]
    unfold referral
    conv_lhs => rw [h1]
    simp only [List.append_assoc]
    rw [← List.append_assoc (encName z), ← List.length_append, List.drop_left]
  exact key _ _

/-! ### C86 -/

/-- C86.  Answers that begin with their aliases, if what is asked for is among them: exactly what is
believed is kept, as the answer to the question. -/
theorem answer_exact (cfg : Times) {ns : DwStr} {bs : List (List UInt8)} (hs : Servers ns bs)
    (hctl : ∀ l ∈ bs, ∀ x ∈ l, 32 ≤ x.toNat) (up : Bool)
    {query inp : DwStr} {qs : List (List UInt8)} {qtype : Nat} (hq : Asks query qs qtype) (h5 : qtype ≠ 5) (h255 : qtype ≠ 255)
    {p : Answers} (hr : Reply inp p) (hk : p.kind ≠ 2) {cs rest : List Rec} (han : p.an = cs ++ rest)
    (hch : Chain qs cs) (hrest : ∀ r ∈ rest, r.type ≠ 5) (hf : ∃ r ∈ believed bs qs qtype rest qs cs, r.type = qtype)
    (hcls : ∀ r ∈ p.an, r.cls = [0, 1]) (h7 : cs = [] → rest.length ≤ 7) (h32 : p.an.length ≤ 32)
    (ttl : Int) (junk : List UInt8) :
    cacheReply cfg ns up query inp ttl junk =
      .ok ⟨[⟨encName qs ++ be16 qtype, (⟨believed bs qs qtype rest qs cs, [], [], 0⟩ : Answers).packed.enc,
        within cfg.min cfg.max ttl⟩], none, none⟩ := by
  rw [cacheReply_zone' cfg hs hctl up query inp ttl junk]
  have hsub : ∀ r ∈ believed bs qs qtype rest qs cs, r ∈ p.an := by
    intro r h
    rw [← keep_chain, ← han] at h
    exact (keep_sublist _ _).subset h
  obtain ⟨o, e, ho, hoc⟩ := (dissect_found hr hq (nameStr_zone hs.name junk) h5 h255 han hch hrest hk hf h7 h32 junk).1
    (fun r h => hcls r (hsub r h))
  rw [e, Res.ok_bind, finish_answer cfg up query _ junk ho hoc (.inl rfl), hq.contents, keepTtl_within]

/-- C86.  Answers that have nothing to do with the question are not believed: nothing is kept. -/
theorem answer_unrelated (cfg : Times) {ns : DwStr} {bs : List (List UInt8)} (hs : Servers ns bs) (up : Bool)
    {query inp : DwStr} {qs : List (List UInt8)} {qtype : Nat} (hq : Asks query qs qtype) (h5 : qtype ≠ 5) (h255 : qtype ≠ 255)
    {p : Answers} (hr : Reply inp p) (han : p.an ≠ [])
    (h : ∀ r ∈ p.an, r.type ≠ 5 ∧ ¬ (r.type = qtype ∧ Alike qs r.name))
    (ttl : Int) (junk : List UInt8) : cacheReply cfg ns up query inp ttl junk = .err := by
  have hno : ¬ ∃ r ∈ believed bs qs qtype p.an qs [], r.type = qtype := by
    rintro ⟨r, hr', ht⟩
    unfold believed at hr'
    simp only [List.mem_filter, decide_eq_true_eq, or_self] at hr'
    exact (h r hr'.1).2 hr'.2
  rcases cacheReply_zone cfg hs up query inp ttl junk with e | e
  · exact e
  rw [e]
  obtain ⟨look, -, hd⟩ := dissect_chain hr hq (nameStr_zone hs.name junk) h5 h255 (cs := []) (rest := p.an) rfl han trivial
    (fun r hr' => (h r hr').1) junk
  rw [hd, (chain_kind bs qs h5 h255 (cs := []) (rest := p.an) trivial).2.2 hno rfl]
  rfl

/-- C86.  Answers that are only aliases, or that lead out of the zone: where they lead is kept and what is
asked for is looked up there, if the name and what is in front of it have at most 258 bytes. -/
theorem alias_exact (cfg : Times) {ns : DwStr} {bs : List (List UInt8)} (hs : Servers ns bs)
    (hctl : ∀ l ∈ bs, ∀ x ∈ l, 32 ≤ x.toNat)
    {query inp : DwStr} {qs : List (List UInt8)} {qtype : Nat} (hq : Asks query qs qtype) (h5 : qtype ≠ 5) (h255 : qtype ≠ 255)
    {p : Answers} (hr : Reply inp p) (hk : p.kind ≠ 2) {cs rest : List Rec} (han : p.an = cs ++ rest)
    (hch : Chain qs cs) (hrest : ∀ r ∈ rest, r.type ≠ 5) {as : List Rec} {r : Rec}
    (has : believed bs qs qtype rest qs cs = as ++ [r]) (hno : ∀ x ∈ as ++ [r], x.type ≠ qtype)
    (hfit : ((as ++ [r]).flatMap aliasEntry).length ≤ 253)
    (hname : ∀ l ∈ r.target, ∀ x ∈ l, 32 ≤ x.toNat)
    (ttl : Int) (junk : List UInt8) :
    ∃ t, cacheReply cfg ns false query inp ttl junk =
      .ok ⟨[⟨encName qs ++ be16 65394, aliases (as ++ [r]), t⟩], none,
        some (encName (r.target.map (List.map lower)) ++ be16 qtype)⟩ := by
  have hf : ¬ ∃ x ∈ believed bs qs qtype rest qs cs, x.type = qtype := by
    rintro ⟨x, h1, h2⟩
    rw [has] at h1
    exact hno x h1 h2
  have hcs : cs ≠ [] := by
    rintro rfl
    refine hf ⟨r, by rw [has]; simp, ?_⟩
    have : r ∈ believed bs qs qtype rest qs [] := by rw [has]; simp
    unfold believed at this
    simp only [List.mem_filter, decide_eq_true_eq] at this
    exact this.2.1
  have htypes : ∀ x ∈ as ++ [r], x.type = 5 := by
    rw [← has]
    exact believed_alias bs qs qtype rest cs qs (chain_types hch) hf
  have hmem : r ∈ p.an := by
    have : r ∈ believed bs qs qtype rest qs cs := by rw [has]; simp
    rw [← keep_chain, ← han] at this
    exact (keep_sublist _ _).subset this
  obtain ⟨-, -, ht⟩ := oneName_form (hr.recs r (by simp [Answers.all, hmem])) (.inr (htypes r (by simp)))
  have hpos : 0 < p.an.length := List.length_pos_of_mem hmem
  obtain ⟨o, e, ho, hoc⟩ := (dissect_aliases hr hq (nameStr_zone hs.name junk) h5 h255 han hch hrest hk hcs hf junk).1
    (by rw [has]; omega)
  rw [has] at hoc
  refine ⟨aliasTtl cfg (keepTtl cfg ttl), ?_⟩
  rw [cacheReply_zone' cfg hs hctl false query inp ttl junk, e, Res.ok_bind]
  rcases finish_alias cfg false hq (keepTtl cfg ttl) junk ho ht (by omega) hoc with ⟨h, -⟩ | ⟨-, f, h1, -, h3⟩
  · cases h
  rw [h1, h3 ?_, hoc]
  obtain ⟨r2, hd⟩ := buf_drop ho (pre := as.flatMap aliasEntry ++ be16 (encName r.target).length) (l := encName r.target)
    (post := be16 ((place 0 ((as ++ [r]).map aliasEntry)).getLastD 0) ++ [17])
    (by rw [hoc]; simp [aliases, aliasEntry])
  rw [List.length_append, be16_length] at hd
  have hlen : ((as ++ [r]).flatMap aliasEntry).length = (as.flatMap aliasEntry).length + 2 + (encName r.target).length := by
    simp [aliasEntry, be16_length]; omega
  rw [getDname_short ht hd (by omega) hname]
  simp

/-- C86.  No answers, and the first authority record is an SOA record: what was asked for does not exist,
and this is kept with the SOA and NS records and the addresses. -/
theorem denial_exact (cfg : Times) {ns : DwStr} {bs : List (List UInt8)} (hs : Servers ns bs)
    (hctl : ∀ l ∈ bs, ∀ x ∈ l, 32 ≤ x.toNat) (up : Bool)
    {query inp : DwStr} {qs : List (List UInt8)} {qtype : Nat} (hq : Asks query qs qtype)
    {p : Answers} (hr : Reply inp p) (hk : p.kind ≠ 2) (han : p.an = []) {r : Rec} {rest : List Rec} (hns : p.ns = r :: rest)
    (h6 : r.type = 6) (hcls : ∀ r ∈ p.all, r.cls = [0, 1]) (ttl : Int) (junk : List UInt8) :
    cacheReply cfg ns up query inp ttl junk =
      .ok ⟨[⟨encName qs ++ be16 qtype, (denial p).packed.enc, within cfg.min cfg.max ttl⟩], none, none⟩ := by
  rw [cacheReply_zone' cfg hs hctl up query inp ttl junk]
  have hsub : ∀ r ∈ (negative p).all, inClass r := by
    intro r h
    refine hcls r ?_
    simp only [negative, Answers.all, List.nil_append, List.mem_append, List.mem_filter] at h ⊢
    rcases h with h | h
    · exact .inl (.inr h.1)
    · exact .inr h.1
  obtain ⟨o, e, ho, hoc⟩ := (dissect_soa hr hq (nameStr_zone hs.name junk).usable han hns h6 junk).1 hk hsub
  rw [e, Res.ok_bind, finish_answer cfg up query _ junk ho hoc (by unfold negative; dsimp only; split <;> simp), hq.contents,
    keepTtl_within]
  rfl

/-- C86.  An answer to a question is made of records of the reply, in their order, of the Internet class
and, unless all types are asked for, of the type asked for or aliases; or it is a denial, which needs an
SOA record in front of the authority records; or it is one additional record with the name and type asked
for. -/
theorem answer_sound (cfg : Times) {ns : DwStr} {bs : List (List UInt8)} (hs : Servers ns bs) (up : Bool)
    {query inp : DwStr} {qs : List (List UInt8)} {qtype : Nat} (hq : Asks query qs qtype) (ht : qtype < 65394)
    {p : Answers} (hr : Reply inp p) (ttl : Int) (junk : List UInt8) {st : Step}
    (h : cacheReply cfg ns up query inp ttl junk = .ok st) {e : Put} (he : e ∈ st.puts)
    (hkey : e.key = encName qs ++ be16 qtype) :
    (p.an ≠ [] ∧ ∃ kept, kept.Sublist p.an ∧ (∀ r ∈ kept, r.cls = [0, 1]) ∧
      (qtype ≠ 255 → ∀ r ∈ kept, r.type = qtype ∨ r.type = 5) ∧ e.value = (⟨kept, [], [], 0⟩ : Answers).packed.enc) ∨
    (p.an = [] ∧ (∃ r rest, p.ns = r :: rest ∧ r.type = 6) ∧ e.value = (denial p).packed.enc) ∨
    (p.an = [] ∧ ∃ r ∈ p.ar, Alike qs r.name ∧ r.type = qtype ∧ r.cls = [0, 1] ∧
      e.value = (⟨[r], [], [], 0⟩ : Answers).packed.enc) := by
  have hkey' : ∀ (x : List UInt8) (n : Nat), n < 65536 → qtype < n → x ++ be16 n = encName qs ++ be16 qtype → False := by
    intro x n hn hlt he
    have he := (List.append_inj' he (by rw [be16_length, be16_length])).2
    simp only [be16, List.cons.injEq, and_true] at he
    have h1 := congrArg UInt8.toNat he.1
    have h2 := congrArg UInt8.toNat he.2
    simp only [UInt8.toNat_ofNat'] at h1 h2
    omega
  rcases cacheReply_zone cfg hs up query inp ttl junk with e1 | e1
  · rw [e1] at h; cases h
  rw [e1] at h
  rcases dissect_makes hr hq (nameStr_zone hs.name junk) junk with e2 | ⟨o, e2, ho, hm⟩
  · rw [e2] at h; cases h
  rw [e2, Res.ok_bind] at h
  cases hm with
  | answer kept some sub cls types eq =>
    rw [finish_answer cfg up query _ junk ho eq (.inl rfl)] at h
    cases h
    simp only [List.mem_singleton] at he
    subst he
    exact .inl ⟨some, kept, sub, cls, types, rfl⟩
  | «alias» cs r _ sub types eq =>
    have hp : ∀ x ∈ cs ++ [r], x.Plain := fun x hx => hr.recs x (by simp [Answers.all, sub.subset hx])
    have h1 := alias_size (cs ++ [r]) hp types
    have h2 := sizes_sublist sub
    have h3 : sizes (p.an.map Rec.toRR) ≤ sizes (p.all.map Rec.toRR) := sizes_sublist (by simp [Answers.all])
    have hsz := hr.size
    obtain ⟨-, -, ht'⟩ := oneName_form (hp r (by simp)) (.inr (types r (by simp)))
    rcases finish_alias cfg up hq (keepTtl cfg ttl) junk ho ht' (by omega) eq with ⟨-, e3⟩ | ⟨-, f, e3, -⟩
    · rw [e3] at h; cases h
    · rw [e3] at h; cases h
      simp only [List.mem_singleton] at he
      subst he
      exact (hkey' _ _ (by omega) ht hkey).elim
  | denial r rest hn hf h6 eq =>
    rw [finish_answer cfg up query _ junk ho eq (by unfold negative; dsimp only; split <;> simp)] at h
    cases h
    simp only [List.mem_singleton] at he
    subst he
    exact .inr (.inl ⟨hn, ⟨r, rest, hf, h6⟩, rfl⟩)
  | extra r hn mem right cls eq =>
    rw [finish_answer cfg up query _ junk ho eq (.inl rfl)] at h
    cases h
    simp only [List.mem_singleton] at he
    subst he
    exact .inr (.inr ⟨hn, r, mem, right.1, right.2, cls, rfl⟩)
  | refer hnone x y z ok zone eq last =>
    rcases finish_refer cfg up query (keepTtl cfg ttl) junk ho ok eq last with ⟨-, e3⟩ | ⟨-, e3 | e3⟩
    · rw [e3] at h; cases h
    · rw [e3] at h; cases h; simp at he
    · rw [e3] at h; cases h
      simp only [List.mem_singleton] at he
      subst he
      exact (hkey' _ _ (by omega) (by omega) hkey).elim
  | blank hnone eq =>
    have hok : Spec.NameOk [] := ⟨by simp [LabelsOk], by decide⟩
    rcases finish_refer cfg up query (keepTtl cfg ttl) junk ho hok (x := [16]) (y := [0]) eq eq with ⟨-, e3⟩ | ⟨-, e3 | e3⟩
    · rw [e3] at h; cases h
    · rw [e3] at h; cases h; simp at he
    · rw [e3] at h; cases h
      simp only [List.mem_singleton] at he
      subst he
      exact (hkey' _ _ (by omega) (by omega) hkey).elim

/-! ### Examples and counterexamples -/

/-- A check whether a record is plain. -/
def plainB (r : Rec) : Bool :=
  decide (r.type < 65536 ∧ r.cls.length = 2 ∧ r.ttl < 4294967296 ∧ r.rdata.length < 65536 ∧
    (r.lead.length, r.names.length, r.tail.length) = (rdLayout r.type).getD (0, 0, r.tail.length) ∧
    (∀ n ∈ r.name :: r.names, (∀ l ∈ n, 1 ≤ l.length ∧ l.length ≤ 63) ∧ (encName n).length ≤ 255))

theorem plain_of {r : Rec} (h : plainB r = true) : r.Plain := by
  obtain ⟨h1, h2, h3, h4, h5, h6⟩ := of_decide_eq_true h
  exact ⟨⟨h1, h2, h3, h4, h5⟩, h6 _ (by simp), fun n hn => h6 n (by simp [hn])⟩

theorem reply_of (p : Answers) (h1 : p.all.all plainB = true) (h2 : sizes (p.all.map Rec.toRR) < 65536)
    (h3 : p.kind = 0 ∨ p.kind = 1 ∨ p.kind = 2) (h4 : p.all ≠ [])
    (h5 : p.packed.enc.length < 134217727) :
    Reply (ofBytes p.packed.enc) p where
  usable := ofBytes_usable h5
  contents := ofBytes_contents _
  recs r hr := plain_of (List.all_eq_true.1 h1 r hr)
  size := h2
  kind := h3
  some := h4

/-- An address record. -/
def exA (o : List (List UInt8)) (ip : List UInt8) : Rec := ⟨o, 1, [0, 1], 60, [], [], ip⟩
/-- An alias. -/
def exAlias (o t : List (List UInt8)) : Rec := ⟨o, 5, [0, 1], 60, [], [t], []⟩
/-- A name server. -/
def exNs (o t : List (List UInt8)) : Rec := ⟨o, 2, [0, 1], 60, [], [t], []⟩
/-- w.a.e -/
def exW : List (List UInt8) := [[119], [97], [101]]
/-- x.a.e -/
def exX : List (List UInt8) := [[120], [97], [101]]
/-- a.e -/
def exD : List (List UInt8) := [[97], [101]]
/-- bank.f -/
def exBank : List (List UInt8) := [[98, 97, 110, 107], [102]]

/-- The question for the address of w.a.e. -/
def exQuery : DwStr := ofBytes (encName exW ++ be16 1)
/-- The servers of e. -/
def exServers : DwStr := ofBytes (encName [[101]] ++ [1, 10, 0, 0, 1, 0, 3, 1, 16])
def exTimes : Times := ⟨0, 86400, 3, 3600⟩

theorem exQuery_asks : Asks exQuery exW 1 where
  usable := ofBytes_usable (by decide)
  name := by unfold Spec.NameOk LabelsOk; decide
  type := by decide
  contents := ofBytes_contents _

theorem exServers_of : Servers exServers [[101]] where
  usable := ofBytes_usable (by decide)
  name := by unfold Spec.NameOk LabelsOk; decide
  begins := ⟨_, ofBytes_contents _⟩

/-- A reply with an alias, where it leads, and something else. -/
def exFound : Answers := ⟨[exAlias exW exX, exA exX [1, 2, 3, 4], exA exBank [6, 6, 6, 6]], [exNs exBank exBank], [exA exBank [6, 6, 6, 6]], 0⟩
/-- A reply with an alias that leads away. -/
def exAway : Answers := ⟨[exAlias exW exBank, exA exBank [6, 6, 6, 6]], [], [], 0⟩
/-- A reply that has nothing to do with the question. -/
def exOther : Answers := ⟨[exA exBank [6, 6, 6, 6]], [], [], 0⟩
/-- A referral, with a name server with an address, one without, and one that is none of its business. -/
def exReferral : Answers := ⟨[], [exNs exD exX, exNs exD exBank, exNs exBank exX], [exA exX [1, 2, 3, 4], exA exW [6, 6, 6, 6]], 0⟩
/-- The same without the answer among the additional records. -/
def exReferral' : Answers := ⟨[], [exNs exD exX, exNs exD exBank, exNs exBank exX], [exA exX [1, 2, 3, 4]], 0⟩
/-- There is no such name. -/
def exDenial : Answers := ⟨[], [⟨[[101]], 6, [0, 1], 60, [], [exX, exX], List.replicate 20 1⟩], [], 1⟩

theorem exFound_reply : Reply (ofBytes exFound.packed.enc) exFound := reply_of _ (by decide +kernel) (by decide +kernel) (by decide) (by decide) (by decide +kernel)
theorem exAway_reply : Reply (ofBytes exAway.packed.enc) exAway := reply_of _ (by decide +kernel) (by decide +kernel) (by decide) (by decide) (by decide +kernel)
theorem exOther_reply : Reply (ofBytes exOther.packed.enc) exOther := reply_of _ (by decide +kernel) (by decide +kernel) (by decide) (by decide) (by decide +kernel)
theorem exReferral_reply : Reply (ofBytes exReferral.packed.enc) exReferral := reply_of _ (by decide +kernel) (by decide +kernel) (by decide) (by decide) (by decide +kernel)
theorem exReferral'_reply : Reply (ofBytes exReferral'.packed.enc) exReferral' := reply_of _ (by decide +kernel) (by decide +kernel) (by decide) (by decide) (by decide +kernel)
theorem exDenial_reply : Reply (ofBytes exDenial.packed.enc) exDenial := reply_of _ (by decide +kernel) (by decide +kernel) (by decide) (by decide) (by decide +kernel)

theorem exCtl : ∀ l ∈ [[(101 : UInt8)]], ∀ x ∈ l, 32 ≤ x.toNat := by decide

/-- The address where the alias leads is the answer; the address of the bank is not in it. -/
example : cacheReply exTimes exServers false exQuery (ofBytes exFound.packed.enc) 60 [] =
    .ok ⟨[⟨encName exW ++ be16 1, (⟨[exAlias exW exX, exA exX [1, 2, 3, 4]], [], [], 0⟩ : Answers).packed.enc, 60⟩], none, none⟩ :=
  answer_exact exTimes exServers_of exCtl false exQuery_asks (by decide) (by decide) exFound_reply (by decide)
    (cs := [exAlias exW exX]) (rest := [exA exX [1, 2, 3, 4], exA exBank [6, 6, 6, 6]]) rfl (by decide) (by decide) (by decide)
    (by decide) (by decide) (by decide) 60 []

example : ∃ t, cacheReply exTimes exServers false exQuery (ofBytes exAway.packed.enc) 60 [] =
    .ok ⟨[⟨encName exW ++ be16 65394, aliases [exAlias exW exBank], t⟩], none, some (encName exBank ++ be16 1)⟩ :=
  alias_exact exTimes exServers_of exCtl exQuery_asks (by decide) (by decide) exAway_reply (by decide)
    (cs := [exAlias exW exBank]) (rest := [exA exBank [6, 6, 6, 6]]) rfl (by decide) (by decide) (as := []) (by decide) (by decide)
    (by decide) (by decide) 60 []

example : cacheReply exTimes exServers false exQuery (ofBytes exOther.packed.enc) 60 [] = .err :=
  answer_unrelated exTimes exServers_of false exQuery_asks (by decide) (by decide) exOther_reply (by decide) (by decide) 60 []

example : cacheReply exTimes exServers false exQuery (ofBytes exDenial.packed.enc) 60 [] =
    .ok ⟨[⟨encName exW ++ be16 1, exDenial.packed.enc, 60⟩], none, none⟩ :=
  denial_exact exTimes exServers_of exCtl false exQuery_asks exDenial_reply (by decide) rfl rfl rfl (by decide) 60 []

/-- The servers of a.e are the one with an address and, by name, the other one; those of the bank stay as
they are. -/
example : ∃ z t, MayDelegate [[101]] exW z ∧ (∃ r ∈ exReferral'.ns, r.name = z ∧ (r.type = 2 ∨ r.type = 6)) ∧
    (∀ d ∈ delegations [[101]] exW exReferral'.ns, (encName d.name).length ≤ (encName z).length) ∧
    (cacheReply exTimes exServers false exQuery (ofBytes exReferral'.packed.enc) 60 [] =
        .ok ⟨[⟨encName z ++ be16 65395, referral (encName z) [[1, 1, 2, 3, 4], 2 :: (be16 8 ++ encName exBank)], t⟩],
          some (referral (encName z) [[1, 1, 2, 3, 4], 2 :: (be16 8 ++ encName exBank)]), none⟩ ∨
      (∃ l ∈ z, ∃ x ∈ l, x.toNat < 32) ∧ cacheReply exTimes exServers false exQuery (ofBytes exReferral'.packed.enc) 60 [] =
        .ok ⟨[], some (referral (encName z) [[1, 1, 2, 3, 4], 2 :: (be16 8 ++ encName exBank)]), none⟩) :=
  referral_exact exTimes exServers_of exCtl exQuery_asks exReferral'_reply (by decide) rfl rfl rfl (by decide) (by decide)
    (by decide) (by decide) (by decide) (by decide) 60 []

example := referral_asked (list := ofBytes (referral (encName exD) [[1, 1, 2, 3, 4], 2 :: (be16 8 ++ encName exBank)])) (ofBytes_usable (by decide))
  (z := exD) (by unfold Spec.NameOk LabelsOk; decide) (es := [[1, 1, 2, 3, 4], 2 :: (be16 8 ++ encName exBank)]) (by decide) (by decide)
  (by decide) (ofBytes_contents _) none [7]

example {st : Step} (h : cacheReply exTimes exServers false exQuery (ofBytes exReferral.packed.enc) 60 [] = .ok st) :
    ∀ e ∈ st.puts, MayKeep [[101]] exW 1 e.key e.value :=
  (kept_inside_partial exTimes exServers_of false exQuery_asks exReferral_reply (by decide) 60 [] h).1

example {st : Step} (h : cacheReply exTimes exServers false exQuery (ofBytes exReferral.packed.enc) 100000 [] = .ok st) :
    ∀ e ∈ st.puts, e.ttl ≤ 86400 :=
  fun e he => (kept_times exTimes (by decide) (by decide) exServers_of false exQuery_asks exReferral_reply 100000 [] h e he).2.1

example : cacheReply exTimes exServers false exQuery (ofBytes exReferral.packed.enc) 60 [] ≠ .ub :=
  reply_safe exTimes exServers_of false exQuery_asks exReferral_reply 60 []

set_option maxRecDepth 100000 in
/-- The answer among the additional records is found (`answer_sound`). -/
example : ∃ st e, cacheReply exTimes exServers false exQuery (ofBytes exReferral.packed.enc) 60 [] = .ok st ∧ e ∈ st.puts ∧
    e.key = encName exW ++ be16 1 :=
  ⟨⟨[⟨encName exW ++ be16 1, (⟨[exA exW [6, 6, 6, 6]], [], [], 0⟩ : Answers).packed.enc, 60⟩], none, none⟩, _, by decide +kernel,
    List.mem_singleton.2 rfl, rfl⟩

end Dissect
end Dw
