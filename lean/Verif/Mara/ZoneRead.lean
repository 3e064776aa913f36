import Verif.Mara.ZoneExact
/-!
# Reading a zone file: the order of the records
-/

namespace Mara
namespace Zf

open Dw (Res)
open Spec
open Big (base base_inj)

variable {h : Host} {zone : Name}

/-- The rest of a file after the name servers. -/
def othersOf (zone : Name) (es : List ZoneLine) : List ZoneLine := (es.filter fun e => e.type ≠ 6).filter fun e => !e.own zone

theorem top_iff (hz : ZoneOk h zone) {e : ZoneLine} (he : ZoneLineOk zone e) :
    ((toRr e).type = 2 ∧ (toRr e).query = (envOf h zone).zone) ↔ e.own zone = true := by
  unfold ZoneLine.own
  rw [decide_eq_true_iff]
  constructor
  · rintro ⟨h1, h2⟩
    obtain ⟨h3, h4⟩ := base_inj (b := false) he.labels hz.labels h2
    exact ⟨h3, by rw [h4, hz.low], h1⟩
  · intro h1
    have hw := he.written (by unfold ZoneLine.own; exact decide_eq_true h1)
    refine ⟨h1.2.2, ?_⟩
    show base e.star e.name = encName zone
    rw [h1.1, hw]
    rfl

theorem stands_plain {e : ZoneLine} (h1 : e.type ≤ 65535) : e.stands zone = [e.given zone] := by
  unfold ZoneLine.stands
  simp only
  rw [if_neg (by omega), if_neg (by omega)]

theorem method_ok : ¬ (envOf h zone).method = 3 := by simp [envOf]

theorem method_two : (envOf h zone).method ≠ 2 := by simp [envOf]

/-- Records after the SOA record: name servers of the zone. -/
theorem addRest_late (hz : ZoneOk h zone) {e : ZoneLine} (he : ZoneLineOk zone e) (ht : e.own zone = true)
    (n : Nat) (ns : Bool) (b o : List Rr) :
    addRest (envOf h zone) ⟨n, false, ns, b, o⟩ (toRr e) = .ok (false, ⟨n, false, ns, b, o⟩) := by
  obtain ⟨g1, g2⟩ := (top_iff hz he).2 ht
  unfold addRest
  simp only [Bool.false_eq_true, false_and, and_false, if_false]
  rw [if_pos ⟨trivial, g1, g2⟩]

/-- Records after the SOA record: others. -/
theorem addRest_later (hz : ZoneOk h zone) {e : ZoneLine} (he : ZoneLineOk zone e) (ht : ¬ e.own zone = true)
    (n : Nat) (ns : Bool) (b o : List Rr) :
    addRest (envOf h zone) ⟨n, false, ns, b, o⟩ (toRr e) = .ok (true, ⟨n, false, ns, b, o ++ (e.stands zone).map outRr⟩) := by
  have hs := hz.short
  unfold addRest
  simp only [Bool.false_eq_true, false_and, and_false, if_false]
  rw [if_neg (fun hc => ht ((top_iff hz he).1 ⟨hc.2.1, hc.2.2⟩)), if_neg (fun hc => method_ok hc.2.2), if_neg (fun hc => method_ok hc.2)]
  rw [addW_ok (h := h) (by omega) _ he.labels he.type]

/-- Name servers of the zone at the top. -/
theorem addRest_own (hz : ZoneOk h zone) {e : ZoneLine} (he : ZoneLineOk zone e) (ht : e.own zone = true)
    (n : Nat) (ns : Bool) (b o : List Rr) :
    addRest (envOf h zone) ⟨n, true, ns, b, o⟩ (toRr e) = .ok (true, ⟨n, true, true, b, o ++ [outRr (e.given zone)]⟩) := by
  have hs := hz.short
  obtain ⟨g1, g2⟩ := (top_iff hz he).2 ht
  have g1' : e.type = 2 := g1
  have key : ∀ st : St, st = ⟨n, true, true, b, o⟩ →
      (if st.inNs = false ∧ (toRr e).type = 2 ∧ (toRr e).query = (envOf h zone).zone then Res.ok (false, st)
      else if st.inNs = false ∧ (toRr e).type = 2 ∧ (envOf h zone).method = 3 then .ok (false, st)
      else if (toRr e).type = 5 ∧ (envOf h zone).method = 3 then .ok (false, st)
      else if st.inNs = true ∧ ((toRr e).type ≠ 2 ∨ ¬ (toRr e).query = (envOf h zone).zone) then do
        let st ← if st.nses = false ∧ (envOf h zone).method ≠ 3 then synthNs (envOf h zone) st else .ok st
        if st.nses = false ∧ (envOf h zone).method = 3 then .ok (false, st)
        else do
          let (_, st) ← if (envOf h zone).method ≠ 2 then addSoa (envOf h zone) st else .ok (true, st)
          addW (envOf h zone) { st with inNs := false } (toRr e)
      else addW (envOf h zone) st (toRr e)) = .ok (true, ⟨n, true, true, b, o ++ [outRr (e.given zone)]⟩) := by
    intro st hst
    subst hst
    simp only [Bool.true_eq_false, false_and, if_false]
    rw [if_neg (fun hc => method_ok hc.2), if_neg (fun hc => by rcases hc.2 with hc | hc; exacts [hc g1, hc g2])]
    rw [addW_ok (h := h) (by omega) _ he.labels he.type, stands_plain (by omega)]
    rfl
  unfold addRest
  simp only
  refine key _ ?_
  cases ns
  · rw [if_pos ⟨rfl, trivial, g1, g2⟩]
  · rw [if_neg (fun hc => absurd hc.1 (by decide))]

theorem addSoa_ok {sr : Rr} {soa : Given} (h6 : sr.type = 6)
    (hsr : ∀ st, addW (envOf h zone) st sr = .ok (true, { st with out := st.out ++ [outRr soa] })) (n : Nat) (ns : Bool) (o : List Rr) :
    addSoa (envOf h zone) ⟨n, true, ns, [sr], o⟩ = .ok (true, ⟨n, false, ns, [], o ++ [outRr soa]⟩) := by
  unfold addSoa
  simp only [Bool.true_eq_false, if_false]
  rw [if_neg (by rw [h6]; decide), pop]
  simp only
  rw [if_pos method_two, hsr, Res.ok_bind]
  rfl

/-- The first record that is not a name server of the zone. -/
theorem addRest_first (hz : ZoneOk h zone) {e : ZoneLine} (he : ZoneLineOk zone e) (ht : ¬ e.own zone = true) {sr : Rr} {soa : Given} (h6 : sr.type = 6)
    (hsr : ∀ st, addW (envOf h zone) st sr = .ok (true, { st with out := st.out ++ [outRr soa] })) (n : Nat) (ns : Bool) (o : List Rr) :
    addRest (envOf h zone) ⟨n, true, ns, [sr], o⟩ (toRr e) = .ok (true, ⟨n, false, ns, [],
      o ++ (if ns then [] else madeNs h zone).map outRr ++ [outRr soa] ++ (e.stands zone).map outRr⟩) := by
  have hs := hz.short
  unfold addRest
  simp only
  rw [if_neg (show ¬ (ns = false ∧ True ∧ (toRr e).type = 2 ∧ (toRr e).query = (envOf h zone).zone) from fun hc => ht ((top_iff hz he).1 ⟨hc.2.2.1, hc.2.2.2⟩))]
  simp only [Bool.true_eq_false, false_and, if_false]
  rw [if_neg (fun hc => method_ok hc.2), if_pos ⟨trivial, by
    by_cases hc : (toRr e).type = 2
    · exact .inr fun hq => ht ((top_iff hz he).1 ⟨hc, hq⟩)
    · exact .inl hc⟩]
  cases ns
  · rw [if_pos ⟨rfl, method_ok⟩, synthNs_ok hz, Res.ok_bind]
    rw [if_neg (fun hc => method_ok hc.2), if_pos method_two, addSoa_ok h6 hsr, Res.ok_bind]
    rw [addW_ok (h := h) (by omega) _ he.labels he.type]
    rfl
  · rw [if_neg (by simp), Res.ok_bind]
    rw [if_neg (fun hc => method_ok hc.2), if_pos method_two, addSoa_ok h6 hsr, Res.ok_bind]
    rw [addW_ok (h := h) (by omega) _ he.labels he.type]
    simp

theorem addRr_soa {e : ZoneLine} (h6 : e.type = 6) {n : Nat} (hn : 1 ≤ n) (i ns : Bool) (b o : List Rr) :
    addRr (envOf h zone) ⟨n, i, ns, b, o⟩ (toRr e) = .ok (false, ⟨n + 1, i, ns, b, o⟩) := by
  have h6' : (toRr e).type = 6 := h6
  unfold addRr
  simp only
  rw [if_neg (by omega), if_neg (by omega), if_neg (by omega), if_pos h6']

theorem addRr_rest {e : ZoneLine} (h6 : ¬ e.type = 6) {n : Nat} (hn : 1 ≤ n) (i ns : Bool) (b o : List Rr) :
    addRr (envOf h zone) ⟨n, i, ns, b, o⟩ (toRr e) = addRest (envOf h zone) ⟨n + 1, i, ns, b, o⟩ (toRr e) := by
  have h6' : ¬ (toRr e).type = 6 := h6
  unfold addRr
  simp only
  rw [if_neg (by omega), if_neg (by omega), if_neg (by omega), if_neg h6']

/-- After the SOA record has been handed on. -/
theorem addAll_rest (hz : ZoneOk h zone) : ∀ (es : List ZoneLine) (n : Nat) (ns : Bool) (b o : List Rr), (∀ e ∈ es, ZoneLineOk zone e) → 1 ≤ n →
    ∃ n', addAll (envOf h zone) (es.map toRr) ⟨n, false, ns, b, o⟩ =
      .ok ⟨n', false, ns, b, o ++ ((othersOf zone es).flatMap (ZoneLine.stands zone)).map outRr⟩
  | [], n, ns, b, o, _, _ => ⟨n, by simp [addAll, othersOf]⟩
  | e :: es, n, ns, b, o, he, hn => by
    have h1 := he e (List.mem_cons_self ..)
    have h2 := fun x hx => he x (List.mem_cons_of_mem _ hx)
    rw [List.map_cons, addAll]
    by_cases h6 : e.type = 6
    · rw [addRr_soa h6 hn, Res.ok_bind]
      have hf : othersOf zone (e :: es) = othersOf zone es := by
        unfold othersOf
        rw [List.filter_cons, if_neg (by simp [h6])]
      rw [hf]
      exact addAll_rest hz es (n + 1) ns b o h2 (by omega)
    · rw [addRr_rest h6 hn]
      have hf : othersOf zone (e :: es) = if e.own zone then othersOf zone es else e :: othersOf zone es := by
        unfold othersOf
        rw [List.filter_cons, if_pos (by simp [h6]), List.filter_cons]
        cases e.own zone <;> rfl
      by_cases ht : e.own zone = true
      · rw [addRest_late hz h1 ht, Res.ok_bind, hf, if_pos ht]
        exact addAll_rest hz es (n + 1) ns b o h2 (by omega)
      · rw [addRest_later hz h1 ht, Res.ok_bind, hf, if_neg ht]
        obtain ⟨n', h3⟩ := addAll_rest hz es (n + 1) ns b (o ++ (e.stands zone).map outRr) h2 (by omega)
        refine ⟨n', h3.trans ?_⟩
        rw [List.flatMap_cons, List.map_append, List.append_assoc]

/-- The end of a file. -/
def finish (env : Env) (st : St) : Res (List Rr) :=
  if st.inNs then do
    let (_, st) ← addSoa env st
    .ok st.out
  else .ok st.out

/-- The records of the file after the SOA record. -/
def restOf (h : Host) (zone : Name) (nses : Bool) (soa : Given) (es : List ZoneLine) : List Given :=
  let rest := es.filter fun e => e.type ≠ 6
  let top := rest.takeWhile (ZoneLine.own zone)
  let others := (rest.dropWhile (ZoneLine.own zone)).filter fun e => !e.own zone
  if others.isEmpty then top.map (ZoneLine.given zone) ++ [soa]
  else (if top.isEmpty && !nses then madeNs h zone else top.map (ZoneLine.given zone)) ++ [soa] ++ others.flatMap (ZoneLine.stands zone)

/-- One record other than a SOA record, with the records after it. -/
theorem read_step (hz : ZoneOk h zone) {sr : Rr} {soa : Given} (h6 : sr.type = 6)
    (hsr : ∀ st, addW (envOf h zone) st sr = .ok (true, { st with out := st.out ++ [outRr soa] }))
    {e : ZoneLine} {es : List ZoneLine} (he : ∀ x ∈ e :: es, ZoneLineOk zone x) (ht6 : ¬ e.type = 6) {n : Nat} (hn : 1 ≤ n) (ns : Bool) (o : List Rr)
    (ih : ∀ o, (addAll (envOf h zone) (es.map toRr) ⟨n, true, true, [sr], o⟩ >>= finish (envOf h zone)) =
      .ok (o ++ (restOf h zone true soa es).map outRr)) :
    ((addRest (envOf h zone) ⟨n, true, ns, [sr], o⟩ (toRr e) >>= fun p => addAll (envOf h zone) (es.map toRr) p.2) >>= finish (envOf h zone)) =
      .ok (o ++ (restOf h zone ns soa (e :: es)).map outRr) := by
  have h1 := he e (List.mem_cons_self ..)
  have h2 := fun x hx => he x (List.mem_cons_of_mem _ hx)
  have hf : (e :: es).filter (fun e => decide (e.type ≠ 6)) = e :: es.filter (fun e => decide (e.type ≠ 6)) := by
    rw [List.filter_cons, if_pos (by simp [ht6])]
  by_cases ht : e.own zone = true
  · rw [addRest_own hz h1 ht, Res.ok_bind, ih]
    have : restOf h zone ns soa (e :: es) = e.given zone :: restOf h zone true soa es := by
      unfold restOf
      simp only
      rw [hf, List.takeWhile_cons, List.dropWhile_cons, if_pos ht, if_pos ht]
      simp only [List.isEmpty_cons, Bool.false_and, Bool.not_true, Bool.and_false, Bool.false_eq_true, if_false]
      split
      · rfl
      · rfl
    rw [this]
    simp
  · rw [addRest_first hz h1 ht h6 hsr, Res.ok_bind]
    obtain ⟨n', h3⟩ := addAll_rest hz es n ns [] (o ++ (if ns then [] else madeNs h zone).map outRr ++ [outRr soa] ++ (e.stands zone).map outRr) h2 hn
    simp only
    rw [h3, Res.ok_bind, finish]
    simp only [Bool.false_eq_true, if_false]
    have : restOf h zone ns soa (e :: es) = (if ns then [] else madeNs h zone) ++ [soa] ++
        (e.stands zone ++ (othersOf zone es).flatMap (ZoneLine.stands zone)) := by
      unfold restOf othersOf
      simp only
      have hg : ∀ l : List ZoneLine, (e :: l).filter (fun e => !e.own zone) = e :: l.filter (fun e => !e.own zone) := by
        intro l
        rw [List.filter_cons, if_pos (by simpa using ht)]
      rw [hf, List.takeWhile_cons, List.dropWhile_cons, if_neg ht, if_neg ht, hg]
      simp only [List.isEmpty_cons, Bool.false_eq_true, if_false, List.isEmpty_nil, Bool.true_and, List.flatMap_cons, List.map_nil]
      cases ns <;> rfl
    rw [this]
    simp only [List.map_append, List.append_assoc, List.map_cons, List.map_nil]

/-- From after the SOA record to the end of the file. -/
theorem read_rest (hz : ZoneOk h zone) {sr : Rr} {soa : Given} (h6 : sr.type = 6)
    (hsr : ∀ st, addW (envOf h zone) st sr = .ok (true, { st with out := st.out ++ [outRr soa] })) :
    ∀ (es : List ZoneLine) (n : Nat) (ns : Bool) (o : List Rr), (∀ e ∈ es, ZoneLineOk zone e) → 1 ≤ n →
    (addAll (envOf h zone) (es.map toRr) ⟨n, true, ns, [sr], o⟩ >>= finish (envOf h zone)) =
      .ok (o ++ (restOf h zone ns soa es).map outRr)
  | [], n, ns, o, _, _ => by
    rw [List.map_nil, addAll, Res.ok_bind, finish]
    simp only [if_true]
    rw [addSoa_ok h6 hsr, Res.ok_bind]
    rfl
  | e :: es, n, ns, o, he, hn => by
    have h2 := fun x hx => he x (List.mem_cons_of_mem _ hx)
    by_cases ht6 : e.type = 6
    · rw [List.map_cons, addAll, addRr_soa ht6 hn, Res.ok_bind]
      have : restOf h zone ns soa (e :: es) = restOf h zone ns soa es := by
        have hf : (e :: es).filter (fun e => decide (e.type ≠ 6)) = es.filter (fun e => decide (e.type ≠ 6)) := by
          rw [List.filter_cons, if_neg (by simp [ht6])]
        unfold restOf
        rw [hf]
      rw [this]
      exact read_rest hz h6 hsr es (n + 1) ns o h2 (by omega)
    · rw [List.map_cons, addAll, addRr_rest ht6 hn]
      exact read_step hz h6 hsr he ht6 (by omega) ns o fun o => read_rest hz h6 hsr es (n + 1) true o h2 (by omega)

theorem synthSoa_ok (hz : ZoneOk h zone) : synthSoa (envOf h zone) ⟨1, true, false, [], []⟩ =
    (true, ⟨1, true, false, [⟨encName zone, 6, 86400, (madeSoa h zone).data⟩], []⟩) := by
  have hs := hz.short
  have hfl : (h.origin.getD (encName zone)).length ≤ 112 := by
    cases ho : h.origin with
    | none => exact hs
    | some o => exact hz.origin o ho
  have hd : (envOf h zone).origin.getD (envOf h zone).zone ++ [10, 104, 111, 115, 116, 109, 97, 115, 116, 101, 114] ++ (envOf h zone).zone ++
      u32 (envOf h zone).serial ++ u32 7200 ++ u32 3600 ++ u32 604800 ++ u32 3600 = (madeSoa h zone).data := by
    unfold madeSoa
    simp only [Lookup.encName_cons]
    have h1 : UInt8.ofNat (ascii "hostmaster").length :: (ascii "hostmaster" ++ encName zone) =
        [10, 104, 111, 115, 116, 109, 97, 115, 116, 101, 114] ++ encName zone := by
      have : UInt8.ofNat (ascii "hostmaster").length :: ascii "hostmaster" = [10, 104, 111, 115, 116, 109, 97, 115, 116, 101, 114] := by
        decide +kernel
      rw [← this]
      rfl
    rw [h1]
    simp only [List.append_assoc]
    rfl
  have hlen : (madeSoa h zone).data.length < 256 := by
    rw [← hd]
    simp only [List.length_append, List.length_cons, List.length_nil, u32]
    show (h.origin.getD (encName zone)).length + _ + (encName zone).length + _ + _ + _ + _ + _ < 256
    omega
  unfold synthSoa
  simp only
  rw [hd, if_neg (by
    rintro (hc | hc)
    · have hc : (h.origin.getD (encName zone)).length ≥ 256 := hc
      omega
    · exact encName_ne_root hz.notRoot hz.labels hc), if_neg (by omega)]
  rfl

/-- Reading a whole file. -/
theorem read_ok (hz : ZoneOk h zone) (es : List ZoneLine) (he : ∀ e ∈ es, ZoneLineOk zone e) :
    readZone (envOf h zone) (es.map toRr) = .ok ((fileRecords h zone es).map outRr) := by
  have hs := hz.short
  have hread : ∀ rrs, readZone (envOf h zone) rrs = (addAll (envOf h zone) rrs St.init >>= finish (envOf h zone)) := fun _ => rfl
  rw [hread]
  cases es with
  | nil => rfl
  | cons e es =>
    have h1 := he e (List.mem_cons_self ..)
    have h2 := fun x hx => he x (List.mem_cons_of_mem _ hx)
    by_cases h6 : e.type = 6
    · have hsr : ∀ st, addW (envOf h zone) st ⟨base e.star e.name, 6, e.ttl, e.data⟩ =
          .ok (true, { st with out := st.out ++ [outRr (e.given zone)] }) := by
        intro st
        have := addW_ok (h := h) (zone := zone) (by omega) st h1.labels h1.type
        rw [stands_plain (by omega)] at this
        rw [← h6]
        exact this
      have hstep : addRr (envOf h zone) St.init (toRr e) =
          .ok (true, ⟨1, true, false, [⟨base e.star e.name, 6, e.ttl, e.data⟩], []⟩) := by
        unfold addRr
        have h6' : (toRr e).type = 6 := h6
        simp only
        rw [if_neg (fun hc => hc.2.1 h6'), if_neg (fun hc => hc.2.1 h6'), if_pos (show St.init.rrnum + 1 = 1 from rfl)]
        rfl
      rw [List.map_cons, addAll, hstep, Res.ok_bind]
      simp only
      rw [read_rest hz rfl hsr es 1 false [] h2 (by omega)]
      have : fileRecords h zone (e :: es) = restOf h zone false (e.given zone) es := by
        unfold fileRecords restOf
        simp only [h6, if_true, Bool.not_false, Bool.and_true]
      rw [this]
      rfl
    · have hsr : ∀ st, addW (envOf h zone) st ⟨encName zone, 6, 86400, (madeSoa h zone).data⟩ =
          .ok (true, { st with out := st.out ++ [outRr (madeSoa h zone)] }) := fun st =>
        addW_given (m := 86400) (by omega) st hz.labels hz.low (by omega) rfl
      have h6' : ¬ (toRr e).type = 6 := h6
      have hfirst : addRr (envOf h zone) St.init (toRr e) = addRest (envOf h zone)
          ⟨1, true, false, [⟨encName zone, 6, 86400, (madeSoa h zone).data⟩], []⟩ (toRr e) := by
        have h0 : addRr (envOf h zone) St.init (toRr e) = addRest (envOf h zone) (synthSoa (envOf h zone) ⟨1, true, false, [], []⟩).2 (toRr e) := by
          unfold addRr
          simp only
          rw [if_pos ⟨rfl, h6', method_ok⟩]
          rfl
        rw [h0, synthSoa_ok hz]
      rw [List.map_cons, addAll, hfirst]
      have : fileRecords h zone (e :: es) = restOf h zone false (madeSoa h zone) (e :: es) := by
        unfold fileRecords restOf
        simp only [h6, if_false, Bool.not_false, Bool.and_true]
      rw [this]
      exact read_step hz rfl hsr he h6 (by omega) false [] fun o => read_rest hz rfl hsr es 1 true o h2 (by omega)

end Zf
end Mara
