import Verif.Deadwood.FromCacheLemmas
import Verif.Deadwood.SynthReplyProps
import Verif.Spec.Served
/-!
# What a client gets from the cache
-/

namespace Dw
namespace FromCache
open Spec Cachespec Reply
open Spec (Cache Entry)
open DwStr (ofBytes ofBytes_usable ofBytes_contents)

theorem fetched_usable {v : List UInt8} (h : v.length < 134217727) : Usable (fetched v) := ofBytes_usable h

theorem fetched_contents (v : List UInt8) : (fetched v).contents = v := ofBytes_contents v

/-! ## Answers -/

theorem packed_turned (p : Answers) : p.packed.rotated.getD p.packed = p.turned.packed := by
  unfold Packed.rotated Answers.turned
  by_cases h : p.ns ≠ [] ∨ p.ar ≠ []
  · have : p.packed.ns ≠ [] ∨ p.packed.ar ≠ [] := by simpa [Answers.packed] using h
    rw [if_pos this, if_pos h]; rfl
  · have : ¬ (p.packed.ns ≠ [] ∨ p.packed.ar ≠ []) := by simpa [Answers.packed] using h
    rw [if_neg this, if_neg h]
    have e1 : p.packed.an.dropWhile (fun r => r.type == 5) =
        (p.an.dropWhile (fun r => r.type == 5)).map Rec.toRR := by
      simp only [Answers.packed, List.dropWhile_map]; rfl
    have e2 : p.packed.an.takeWhile (fun r => r.type == 5) =
        (p.an.takeWhile (fun r => r.type == 5)).map Rec.toRR := by
      simp only [Answers.packed, List.takeWhile_map]; rfl
    simp only [e1, e2]
    cases p.an.dropWhile (fun r => r.type == 5) with
    | nil => rfl
    | cons r l =>
      cases l with
      | nil => rfl
      | cons q post =>
        simp only [List.map_cons]
        have : (Rec.toRR r).type = r.type := rfl
        rw [this]
        split
        · rfl
        · simp [Answers.packed]

theorem packed_aged (p : Answers) (t : Nat) : p.packed.aged t = (p.withTtl (agedTtl t)).packed := by
  simp only [Packed.aged, Answers.packed, Answers.withTtl, List.map_map]
  rfl

theorem turned_perm (p : Answers) : p.turned.an.Perm p.an ∧ p.turned.ns = p.ns ∧ p.turned.ar = p.ar ∧ p.turned.kind = p.kind := by
  unfold Answers.turned
  split
  · exact ⟨List.Perm.refl _, rfl, rfl, rfl⟩
  · split
    · next r q post hd =>
      split
      · exact ⟨List.Perm.refl _, rfl, rfl, rfl⟩
      · refine ⟨?_, rfl, rfl, rfl⟩
        have e := List.takeWhile_append_dropWhile (p := fun r : Rec => r.type == 5) (l := p.an)
        rw [hd] at e
        conv_rhs => rw [← e]
        simp only [List.append_assoc]
        refine List.Perm.append_left _ ?_
        exact (List.perm_append_comm (l₁ := [r])).symm
    · exact ⟨List.Perm.refl _, rfl, rfl, rfl⟩

theorem turned_all (p : Answers) : p.turned.all.Perm p.all := by
  obtain ⟨h1, h2, h3, -⟩ := turned_perm p
  simp only [Answers.all, h2, h3]
  exact (h1.append_right _).append_right _

theorem room_ttl (r : Rec) (t : Nat) : Rec.room { r with ttl := t } = r.room := rfl

/-- What is needed to give the answer is not changed by the order. -/
theorem turned_ok {p : Answers} (h : AnsOk p) :
    AnsOk p.turned ∧ (p.turned.all.map Rec.room).sum = (p.all.map Rec.room).sum := by
  have hp := turned_all p
  have hk := (turned_perm p).2.2.2
  refine ⟨⟨?_, fun r hr => h.recs r (hp.mem_iff.1 hr), by rw [hk]; exact h.kind, ?_⟩, (hp.map _).sum_nat⟩
  · intro e; rw [e] at hp; exact h.some (List.nil_perm.1 hp)
  · have : sizes p.turned.packed.all = sizes p.packed.all := by
      rw [DwStr.packed_all, DwStr.packed_all]
      exact ((hp.map _).map _).sum_nat
    rw [this]; exact h.size

theorem withTtl_ok {p : Answers} (h : AnsOk p) {t : Nat} (ht : t < 4294967296) :
    AnsOk (p.withTtl t) ∧ ((p.withTtl t).all.map Rec.room).sum = (p.all.map Rec.room).sum := by
  have e : (p.withTtl t).all = (p.an.map fun r => { r with ttl := t }) ++ p.ns ++ p.ar := rfl
  refine ⟨⟨?_, ?_, h.kind, ?_⟩, ?_⟩
  · have := h.some
    rw [e]; simpa [Answers.all] using this
  · intro r hr
    rw [e, List.append_assoc, List.mem_append] at hr
    rcases hr with hr | hr
    · obtain ⟨x, hx, rfl⟩ := List.mem_map.1 hr
      have := h.recs x (by simp [Answers.all, hx])
      exact ⟨⟨this.ok.type, this.ok.cls, ht, this.ok.size, this.ok.form⟩, this.name, this.names⟩
    · exact h.recs r (by simpa [Answers.all] using Or.inr (List.mem_append.1 hr))
  · have : sizes (p.withTtl t).packed.all = sizes p.packed.all := by
      rw [DwStr.packed_all, DwStr.packed_all, e, sizes, sizes]
      simp only [Answers.all, List.map_append, List.map_map]
      rfl
    rw [this]; exact h.size
  · rw [e]
    simp only [Answers.all, List.map_append, List.map_map]
    rfl

theorem turned_withTtl (p : Answers) (t : Nat) : (p.withTtl t).turned = p.turned.withTtl t := by
  unfold Answers.turned
  have hns : (p.withTtl t).ns = p.ns := rfl
  have har : (p.withTtl t).ar = p.ar := rfl
  have han : (p.withTtl t).an = p.an.map fun r => { r with ttl := t } := rfl
  rw [hns, har]
  split
  · rfl
  · have e1 : (p.withTtl t).an.dropWhile (fun r => r.type == 5) =
        (p.an.dropWhile (fun r => r.type == 5)).map fun r => { r with ttl := t } := by
      rw [han, List.dropWhile_map]; rfl
    have e2 : (p.withTtl t).an.takeWhile (fun r => r.type == 5) =
        (p.an.takeWhile (fun r => r.type == 5)).map fun r => { r with ttl := t } := by
      rw [han, List.takeWhile_map]; rfl
    rw [e1, e2]
    cases p.an.dropWhile (fun r => r.type == 5) with
    | nil => rfl
    | cons r l =>
      cases l with
      | nil => rfl
      | cons q post =>
        simp only [List.map_cons]
        split
        · rfl
        · simp [Answers.withTtl]

theorem withTtl_withTtl (p : Answers) (t u : Nat) : (p.withTtl t).withTtl u = p.withTtl u := by
  simp [Answers.withTtl]

/-- The answer, aged and rotated, with `s` seconds left. -/
def renewedA (cfg : Cfg) (s : Nat) (p : Answers) : Answers :=
  let p := if cfg.age = 1 then p.withTtl (agedTtl s) else p
  if cfg.chain = 1 then p.turned else p

theorem renewed_packed (cfg : Cfg) (s : Nat) (p : Answers) : renewed cfg s p.packed = (renewedA cfg s p).packed := by
  unfold renewed renewedA
  by_cases ha : cfg.age = 1
  · simp only [ha, if_true, packed_aged]
    split
    · exact packed_turned _
    · rfl
  · simp only [ha, if_false]
    split
    · exact packed_turned _
    · rfl

theorem agedTtl_lt (s : Nat) : agedTtl s < 4294967296 := by unfold agedTtl; omega

theorem renewedA_ok (cfg : Cfg) (s : Nat) {p : Answers} (h : AnsOk p) :
    AnsOk (renewedA cfg s p) ∧ ((renewedA cfg s p).all.map Rec.room).sum = (p.all.map Rec.room).sum := by
  unfold renewedA
  have h1 := withTtl_ok h (agedTtl_lt s)
  by_cases ha : cfg.age = 1
  · simp only [ha, if_true]
    split
    · have := turned_ok h1.1
      exact ⟨this.1, this.2.trans h1.2⟩
    · exact h1
  · simp only [ha, if_false]
    split
    · exact turned_ok h
    · exact ⟨h, rfl⟩

/-! ## Questions -/

/-- A question from a client: a name and a type, and the packet (if there is one) starts with a header
and this question. -/
structure WellAsked (a : Ask) (qn : List (List UInt8)) (t : Nat) : Prop where
  labels : LabelsOk qn
  short : (encName qn).length ≤ 255
  type : t < 65536
  id : a.id < 65536
  query : a.query = asked qn t
  packet : ∀ pkt len, a.packet = some (pkt, len) → ∃ (h : Header) (rest : List UInt8),
    pkt = h.enc ++ (encName qn ++ rest) ∧ 12 + (encName qn).length + 4 ≤ len ∧ len ≤ pkt.length

theorem label_count : ∀ {qn : List (List UInt8)}, LabelsOk qn → 2 * qn.length + 1 ≤ (encName qn).length := by
  intro qn
  induction qn with
  | nil => intro _; simp [encName, encLabels]
  | cons l ls ih =>
    intro h
    have h1 := h l (by simp)
    have := ih (fun x hx => h x (by simp [hx]))
    rw [encName_cons]
    simp only [List.length_cons, List.length_append]
    omega

theorem first_zero {a : List UInt8} {i k : Nat} (hi : i ≤ k) (hk : a[k]? = some 0) : ∃ j, SR.FirstZero a i j ∧ j ≤ k := by
  induction k using Nat.strongRecOn with
  | _ k ih =>
    by_cases h : ∃ j, i ≤ j ∧ j < k ∧ a[j]? = some 0
    · obtain ⟨j, h1, h2, h3⟩ := h
      obtain ⟨j', g1, g2⟩ := ih j h2 h1 h3
      exact ⟨j', g1, by omega⟩
    · exact ⟨k, ⟨hi, hk, fun j h1 h2 h3 => h ⟨j, h1, h2, h3⟩⟩, Nat.le_refl _⟩

theorem refuse_works {a : Ask} {qn : List (List UInt8)} {t : Nat} (W : WellAsked a qn t) (c : Cache) :
    ∃ o, (refuse a).spec c = some (o, c) := by
  unfold refuse
  split
  · next packet len h1 h2 =>
    obtain ⟨h, rest, rfl, g1, g2⟩ := W.packet packet len h2
    have hz : (h.enc ++ (encName qn ++ rest))[12 + (encLabels qn).length]? = some 0 := by
      rw [List.getElem?_append_right (by rw [SR.enc_length]; omega), SR.enc_length]
      simp [encName, List.append_assoc]
    have hl : (encName qn).length = (encLabels qn).length + 1 := by simp [encName]
    have hs := W.short
    obtain ⟨k, k1, k2⟩ := first_zero (i := 12) (by omega) hz
    rcases SR.blocklist_cases h (encName qn ++ rest) len (by omega) g2 with ⟨-, e⟩ | ⟨k', -, -, -, e⟩
    · exact absurd ⟨k, k1, by omega, by omega⟩ e
    · rw [e]; exact ⟨_, rfl⟩
  · exact ⟨_, rfl⟩

/-- What happens to the entry for `k` when an answer is looked for. -/
def Tends (k : List UInt8) (p : Prog Outcome) (c : Cache) : Prop :=
  ∃ o c', p.spec c = some (o, c') ∧ Inv c' ∧ Only k c c' ∧
    ∀ e', Cache.find c'.lru k = some e' →
      ∃ e, Cache.find c.lru k = some e ∧ e'.expire = e.expire ∧ e'.val.getLast? = e.val.getLast?

theorem asked_usable {a : Ask} {qn : List (List UInt8)} {t : Nat} (W : WellAsked a qn t) :
    Usable (fetched a.query) ∧ (fetched a.query).contents = asked qn t := by
  have := W.short
  have hl : a.query.length = (encName qn).length + 2 := by rw [W.query]; simp [asked, be16_length]
  exact ⟨ofBytes_usable (by omega), by rw [fetched_eq, ofBytes_contents]; exact W.query⟩

theorem deliver_works {cfg : Cfg} {a : Ask} {qn : List (List UInt8)} {t : Nat} (W : WellAsked a qn t) {c : Cache}
    (I : Inv c) (k : List UInt8) {comp : DwStr} (hc : Usable comp) : Tends k (deliver cfg a k comp) c := by
  unfold deliver
  split
  · obtain ⟨h1, h2, h3⟩ := drop_inv I k
    exact ⟨fail, _, rfl, h1, h2, fun e he => ⟨e, h3 e he, rfl, rfl⟩⟩
  · obtain ⟨p, v, e⟩ := makePacket_safe (asked_usable W).1 hc a.id cfg.junk
    rw [attempt_gives (show Gives _ (some (p, v)) from e)]
    cases p with
    | none => exact ⟨_, c, rfl, I, Only.refl _ _, fun e he => ⟨e, he, rfl, rfl⟩⟩
    | some p => exact ⟨_, c, rfl, I, Only.refl _ _, fun e he => ⟨e, he, rfl, rfl⟩⟩

theorem Tends.after {k : List UInt8} {p : Prog Outcome} {c c1 : Cache} (h : Tends k p c1) (ho : Only k c c1)
    (he : ∀ e', Cache.find c1.lru k = some e' →
      ∃ e, Cache.find c.lru k = some e ∧ e'.expire = e.expire ∧ e'.val.getLast? = e.val.getLast?) :
    ∃ o c', p.spec c1 = some (o, c') ∧ Inv c' ∧ Only k c c' ∧ ∀ e', Cache.find c'.lru k = some e' →
      ∃ e, Cache.find c.lru k = some e ∧ e'.expire = e.expire ∧ e'.val.getLast? = e.val.getLast? := by
  obtain ⟨o, c', h1, h2, h3, h4⟩ := h
  refine ⟨o, c', h1, h2, ho.trans h3, fun e' he' => ?_⟩
  obtain ⟨e1, g1, g2, g3⟩ := h4 e' he'
  obtain ⟨e, f1, f2, f3⟩ := he e1 g1
  exact ⟨e, f1, g2.trans f2, g3.trans f3⟩

theorem seen_storable {c : Cache} (I : Inv c) {now : Int} {k v : List UInt8} {b : Bool} (h : seen c now k b = some v) :
    Storable v := by
  unfold seen at h
  split at h
  · next e he => cases h; exact I.perm e (find_some_mem he).1
  · split at h
    · cases h
    · next e he =>
      split at h
      · cases h; exact I.lru e (find_some_mem he).1
      · cases h

theorem found_works {cfg : Cfg} {now : Int} (hn : 0 ≤ now) {a : Ask} {qn : List (List UInt8)} {t : Nat}
    (W : WellAsked a qn t) {c : Cache} (I : Inv c) {q : DwStr} (hq : Usable q) :
    Tends q.contents (found cfg now a q) c := by
  obtain ⟨c1, e1, I1, O1, h1, h2⟩ := process_works cfg hn I q.contents
  have T1 : ∀ e', Cache.find c1.lru q.contents = some e' →
      ∃ e, Cache.find c.lru q.contents = some e ∧ e'.expire = e.expire ∧ e'.val.getLast? = e.val.getLast? := by
    intro e' he'
    cases hl : Cache.find c.lru q.contents with
    | none => rw [h2 hl] at he'; cases he'
    | some e =>
      have hp : Cache.find c.perm q.contents = none := by
        cases hp : Cache.find c.perm q.contents with
        | none => rfl
        | some x => rw [perm_not_lru I hp] at hl; cases hl
      obtain ⟨v, g1, g2⟩ := h1 e hp hl
      rw [he'] at g1; cases g1
      exact ⟨e, rfl, rfl, g2.last⟩
  unfold Tends found
  rw [Prog.spec_bind, e1]
  simp only [Option.bind_some, look, Prog.spec, step]
  obtain ⟨l1, l2, l3, l4⟩ := look_inv I1 now q.contents a.resurrect
  rw [l1]
  have T2 : ∀ e', Cache.find (c1.look now q.contents a.resurrect).2.lru q.contents = some e' →
      ∃ e, Cache.find c.lru q.contents = some e ∧ e'.expire = e.expire ∧ e'.val.getLast? = e.val.getLast? := by
    intro e' he'; rw [l4] at he'; exact T1 e' he'
  have O2 := O1.trans l3
  cases hs : seen c1 now q.contents a.resurrect with
  | none => exact ⟨fail, _, rfl, l2, O2, T2⟩
  | some v =>
    have hv := seen_storable I1 hs
    simp only
    rw [attempt_gives (last_gives hv.1)]
    split
    · obtain ⟨o, ho⟩ := refuse_works W (c1.look now q.contents a.resurrect).2
      exact ⟨o, _, ho, l2, O2, T2⟩
    · split
      · rcases DwStr.compress_total hq (fetched_usable hv.1) cfg.junk with e | ⟨comp, e, hc, -⟩
        · rw [attempt_gives (show Gives _ none from e)]
          exact ⟨fail, _, rfl, l2, O2, T2⟩
        · rw [attempt_gives (show Gives _ (some comp) from e)]
          exact (deliver_works W l2 q.contents hc).after O2 T2
      · obtain ⟨d1, d2, d3⟩ := drop_inv l2 q.contents
        obtain ⟨comp, e, hc, -⟩ := copy_exact (fetched_usable hv.1) cfg.junk
        simp only [drop, Prog.spec, step]
        rw [attempt_gives (show Gives _ (some comp) from e)]
        exact (deliver_works W d1 q.contents hc).after (O2.trans d2) (fun e' he' => T2 e' (d3 e' he'))

/-- Nothing is there: nothing is sent. -/
theorem found_nothing {cfg : Cfg} {now : Int} (hn : 0 ≤ now) {a : Ask} {c : Cache} (I : Inv c) {q : DwStr}
    (hp : Cache.find c.perm q.contents = none)
    (hl : ∀ e, Cache.find c.lru q.contents = some e → a.resurrect = false ∧ Cache.fresh now e = false) :
    ∃ c', (found cfg now a q).spec c = some (fail, c') := by
  obtain ⟨c1, e1, I1, O1, h1, h2⟩ := process_works cfg hn I q.contents
  have hs : seen c1 now q.contents a.resurrect = none := by
    have hp1 : Cache.find c1.perm q.contents = none := by rw [O1.perm]; exact hp
    unfold seen
    rw [hp1]
    simp only
    cases hl0 : Cache.find c.lru q.contents with
    | none => rw [h2 hl0]
    | some e =>
      obtain ⟨v, g1, g2⟩ := h1 e hp hl0
      obtain ⟨f1, f2⟩ := hl e hl0
      rw [g1]
      have : Cache.fresh now { e with val := v } = Cache.fresh now e := rfl
      simp [f1, this, f2]
  unfold found
  rw [Prog.spec_bind, e1]
  simp only [Option.bind_some, look, Prog.spec, step]
  obtain ⟨l1, -, -, -⟩ := look_inv I1 now q.contents a.resurrect
  rw [l1, hs]
  exact ⟨_, rfl⟩

/-- The answer is there: it is given, and kept in the new order. -/
theorem found_answer {cfg : Cfg} {now : Int} (hn : 0 ≤ now) {a : Ask} {qn : List (List UInt8)} {t : Nat}
    (W : WellAsked a qn t) {c : Cache} (I : Inv c) {q : DwStr} (hq : Usable q)
    (hqc : q.contents = keyOf qn t) {e : Entry} (hp : Cache.find c.perm (keyOf qn t) = none)
    (hl : Cache.find c.lru (keyOf qn t) = some e) (hf : Cache.fresh now e = true)
    (hy : e.expire - now < 31536001 * 256) {p : Answers} (hA : AnsOk p) (hv : e.val = p.packed.enc)
    (hroom : (p.all.map Rec.room).sum ≤ 450) :
    ∃ o c', (found cfg now a q).spec c = some (o, c') ∧
      Cache.find c'.lru (keyOf qn t) =
        some { e with val := (renewedA cfg ((e.expire - now) / 256).toNat p).packed.enc } ∧
      ((p.all.map Rec.room).sum + (encName qn).length + 16 < 515 → a.tcp = none →
        ∃ (bytes : List UInt8) (m : Msg), o = ⟨1, some (.udp bytes)⟩ ∧ m.Is bytes ∧
          Carries m ⟨a.id, W.id⟩ qn t (renewedA cfg ((e.expire - now) / 256).toNat p)) := by
  obtain ⟨c1, e1, I1, O1, h1, -⟩ := process_works cfg hn I q.contents
  rw [hqc] at h1
  obtain ⟨v, g1, g2⟩ := h1 e hp hl
  have hve := g2.new p.packed hA.packed (by
    rw [DwStr.packed_all]; simpa using hA.some) hv hf hy
  rw [renewed_packed] at hve
  generalize hP : renewedA cfg ((e.expire - now) / 256).toNat p = P at *
  obtain ⟨hPA, hPr⟩ := renewedA_ok cfg ((e.expire - now) / 256).toNat hA
  rw [hP] at hPA hPr
  have hp1 : Cache.find c1.perm (keyOf qn t) = none := by rw [O1.perm]; exact hp
  have hs : seen c1 now q.contents a.resurrect = some v := by
    unfold seen
    rw [hqc, hp1, g1]
    have : Cache.fresh now { e with val := v } = true := hf
    simp [this]
  obtain ⟨l1, l2, l3, l4⟩ := look_inv I1 now q.contents a.resurrect
  have hst := seen_storable I1 hs
  unfold found
  rw [Prog.spec_bind, e1]
  simp only [Option.bind_some, look, Prog.spec, step]
  rw [l1, hs]
  simp only
  rw [attempt_gives (last_gives hst.1), hve, enc_last]
  have hk : P.packed.kind = 0 ∨ P.packed.kind = 1 ∨ P.packed.kind = 2 := hPA.kind
  rw [if_neg (by rcases hk with h | h | h <;> simp [h]), if_pos (by rcases hk with h | h | h <;> simp [h])]
  obtain ⟨u1, u2⟩ := asked_usable W
  have hql : qn.length < 128 := by
    have := label_count W.labels
    have := W.short
    omega
  rw [hve] at hst
  obtain ⟨o, f1, f2, pk, v', f3, f4, f5⟩ := answer_message hq u1 (fetched_usable hst.1) cfg.junk W.labels hql hqc u2 W.short
    ⟨a.id, W.id⟩ hPA (fetched_contents _) (by omega)
  rw [attempt_gives (show Gives _ (some o) from f1)]
  simp only [deliver, if_neg f2]
  rw [attempt_gives (show Gives _ (some (pk, v')) from f3)]
  have hfin : Cache.find (c1.look now q.contents a.resurrect).2.lru (keyOf qn t) = some { e with val := P.packed.enc } := by
    rw [l4, g1, hve]
  cases pk with
  | none =>
    refine ⟨fail, _, rfl, hfin, fun h _ => ?_⟩
    have := f4 (by omega)
    cases this
  | some pk =>
    refine ⟨_, _, rfl, hfin, fun h ht => ?_⟩
    obtain ⟨m, m1, m2⟩ := f5 pk rfl
    exact ⟨pk.contents, m, by rw [ht], m1, m2⟩

end FromCache
end Dw
