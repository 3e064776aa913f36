import Verif.Deadwood.HashFileProps
import Verif.Deadwood.HashProps
/-! # A restart in the middle of a history (C19) -/

namespace Dw
open Spec (Cache Entry)
open Cachespec
open Hash (ent)

/-- Insertions as Deadwood makes them: nonempty key and value below 2^24 bytes,
clock between the epoch and 2^62 ticks. -/
def SaneOp : HOp → Prop
  | .put now k v _ => k ≠ [] ∧ v ≠ [] ∧ k.length ≤ 16777216 ∧ v.length ≤ 16777216 ∧ 0 ≤ now ∧
      now < 4611686018427387904
  | _ => True

theorem step_sane {c : Cache} {op : HOp} (hc : ∀ e ∈ c.lru, GoodRec e.key e.val e.expire)
    (ho : SaneOp op) : ∀ e ∈ (step c op).2.lru, GoodRec e.key e.val e.expire := by
  cases op with
  | put now k v t =>
    obtain ⟨h1, h2, h3, h4, h5, h6⟩ := ho
    simp only [step, Cache.put]
    split
    · rename_i c' hc'
      split_ifs at hc' with ha hb
      · cases hc'; exact hc
      · cases hc'
        intro e he
        have he := (trim_sub _).1.subset he
        rcases List.mem_cons.1 he with rfl | he
        · refine ⟨h1, h2, h3, h4, ?_, ?_⟩ <;>
          · simp only [Cache.expiry]
            split_ifs with h7
            · split
              · rename_i x hx
                have := hc x (List.mem_of_find?_eq_some hx)
                have a := this.x2; have b := this.xm
                omega
              · omega
            · simp only [Cache.clampTtl]; omega
        · exact hc e (mem_without.1 he).1
    · exact hc
  | pin now k v =>
    simp only [step, Cache.pin]
    split
    · rename_i c' hc'
      split_ifs at hc'
      cases hc'; exact hc
    · exact hc
  | look now k ig =>
    simp only [step, Cache.look]
    split
    · exact hc
    · split
      · exact hc
      · rename_i x hx
        split_ifs
        · intro e he
          rcases List.mem_cons.1 he with rfl | he
          · exact hc e (List.mem_of_find?_eq_some hx)
          · exact hc e (mem_without.1 he).1
        · exact hc
  | ttl now k => exact hc
  | drop k =>
    simp only [step, Cache.drop]
    split_ifs
    · exact hc
    · intro e he; exact hc e (mem_without.1 he).1
    · exact hc

theorem run_sane (ops : List HOp) : ∀ {c : Cache}, (∀ e ∈ c.lru, GoodRec e.key e.val e.expire) →
    (∀ op ∈ ops, SaneOp op) → ∀ e ∈ (run c ops).2.lru, GoodRec e.key e.val e.expire := by
  induction ops with
  | nil => intro c hc _; exact hc
  | cons op ops ih =>
    intro c hc ho
    exact ih (step_sane hc (ho op (by simp))) (fun o h => ho o (by simp [h]))

theorem run_keys (ops : List HOp) : ∀ {c : Cache} {ks : List (List UInt8)}, 0 < c.cap →
    c.lru.length < c.cap → (∀ e ∈ c.lru ++ c.perm, e.key ∈ ks) → (∀ k ∈ keysOf ops, k ∈ ks) →
    ∀ e ∈ (run c ops).2.lru ++ (run c ops).2.perm, e.key ∈ ks := by
  induction ops with
  | nil => intro c ks _ _ hk _; exact hk
  | cons op ops ih =>
    intro c ks hc hlen hk hko
    have hb := step_book c op ks hc hlen hk
    have hsplit : keysOf (op :: ops) = keysOf [op] ++ keysOf ops := keysOf_append [op] ops
    rw [hsplit] at hko
    refine ih (by omega) (by omega) ?_ (fun k hk => hko k (by simp [hk]))
    intro e he
    rcases List.mem_append.1 (hb.2.2.2 e he) with h | h
    · exact h
    · exact hko _ (by simp [h])

/-- **C19.** Run Deadwood's cache through any history `ops`, save it, load it in
a new process (other hash function, configured size `cs` that holds the
entries), and run any further history `ops'`: every answer is that of the
abstract cache with the same expirable entries, in the same recency order, and
no permanent ones.  (`junk = false`: see `load_junk_is_kept` for why.) -/
theorem restart_continues (hf hf' : List UInt8 → Nat) {cs0 n cs : Nat} {ops ops' : List HOp}
    (g : Good hf cs0 n ops) (hs : ∀ op ∈ ops, SaneOp op)
    (hlo : 32 < cs) (hhi : cs < 16777218) (hfit : (Hash.init cs0 n).max ≤ cs)
    (hF : ∀ m, NoFlood hf' m (cs + pins ops') (keysOf ops ++ keysOf ops'))
    (hl : Legal ⟨cs, (run (fresh0 cs0 n) ops).2.lru, []⟩ ops') :
    ∃ outs h file h' h'', (Hash.init cs0 n).run hf ops = .ok (outs, h) ∧
      h.writeHash = .ok file ∧ Hash.readHash hf' (fun _ => false) cs file = .ok h' ∧
      h'.run hf' ops' =
        .ok ((run ⟨cs, (run (fresh0 cs0 n) ops).2.lru, []⟩ ops').1, h'') := by
  obtain ⟨h, es, ps, h1, R, hlen, -, hmax⟩ := g.sim
  have hrec : ∀ e ∈ es, GoodRec e.key e.value e.expire := by
    intro e he
    have := run_sane ops (c := fresh0 cs0 n) (by simp) hs (ent e)
      (by rw [R.lru]; exact List.mem_map_of_mem he)
    exact this
  have hlen' : es.length < cs := by
    rw [R.lru, List.length_map] at hlen; omega
  have S : Savable hf h es ps cs := ⟨R.inv, hrec, hlen', hlo, hhi⟩
  have hw := S.write
  obtain ⟨file, h', hf1, hr, hlist, hm, es', L, him⟩ :=
    load_truncated hf hf' (fun _ => false) S
      (8 + (es.reverse.flatMap (fun e => encRec e.rec')).length) (by omega)
  have hfe : file = Hash.fileHead ++ es.reverse.flatMap (fun e => encRec e.rec') := by
    rw [hw] at hf1; exact (Res.ok.inj hf1).symm
  have hflen : file.length = 8 + (es.reverse.flatMap (fun e => encRec e.rec')).length := by
    rw [hfe, List.length_append]; rfl
  rw [List.take_of_length_le (by omega)] at hr
  rw [complete_all _ _ (by rw [List.flatMap_map]; omega), List.map_reverse, List.reverse_reverse,
    L.listing] at hlist
  have hes : es'.map Elem.rec' = es.map Elem.rec' := Option.some.inj hlist
  have hent : es'.map ent = es.map ent := by
    have hc : ∀ l : List Elem, l.map ent = (l.map Elem.rec').map (fun r => ⟨r.1, r.2.1, r.2.2⟩) := by
      intro l; rw [List.map_map]; rfl
    rw [hc, hc, hes]
  have R' : Hash.Rel hf' h'.mask h' ⟨cs, (run (fresh0 cs0 n) ops).2.lru, []⟩ es' [] := by
    refine ⟨⟨by simpa using L.t, L.fila, ?_, by simp⟩, ?_, rfl, hm.symm, rfl⟩
    · intro e he
      refine ⟨him e he, ?_⟩
      have : ent e ∈ es.map ent := by rw [← hent]; exact List.mem_map_of_mem he
      obtain ⟨x, hx, hxe⟩ := List.mem_map.1 this
      have h2 := (hrec x hx).x2
      have : x.expire = e.expire := congrArg Entry.expire hxe
      omega
    · show (run (fresh0 cs0 n) ops).2.lru = _
      rw [hent, R.lru]
  have hkeys : ∀ e ∈ (run (fresh0 cs0 n) ops).2.lru, e.key ∈ keysOf ops := by
    intro e he
    exact (run_keys ops (c := fresh0 cs0 n) (ks := keysOf ops) (Hash.max_pos cs0 n)
      (Hash.max_pos cs0 n) (by simp) (fun _ h => h)) e (by simp [he])
  obtain ⟨h'', es2, ps2, hrun, -⟩ := Hash.run_sim (hF h'.mask) ops' R' (by simp; omega)
    (by
      show (run (fresh0 cs0 n) ops).2.lru.length < cs
      omega)
    (by simp)
    (by
      intro e he
      rw [List.append_nil] at he
      exact List.mem_append_left _ (hkeys e he))
    (fun k hk => List.mem_append_right _ hk) hl
  exact ⟨_, h, file, h', h'', h1, hf1, hr, hrun⟩

/-- A save and reload in the middle of a history of a six-entry cache. -/
example (hf hf' : List UInt8 → Nat) :
    ∃ outs h file h' h'',
      (Hash.init 0 6).run hf [.put 5 [1] [10] 60, .put 6 [2] [20] 60, .look 7 [1] false] =
        .ok (outs, h) ∧
      h.writeHash = .ok file ∧ Hash.readHash hf' (fun _ => false) 40 file = .ok h' ∧
      h'.run hf' [.look 8 [1] false, .put 9 [2] [21] 60, .look 10 [2] false] =
        .ok ([.val (some [10]), .code 1, .val (some [21])], h'') := by
  have hm : (Hash.init 0 6).max = 6 := by decide
  have h := restart_continues hf hf' (cs0 := 0) (n := 6) (cs := 40)
    (ops := [.put 5 [1] [10] 60, .put 6 [2] [20] 60, .look 7 [1] false])
    (ops' := [.look 8 [1] false, .put 9 [2] [21] 60, .look 10 [2] false])
    (good_of_startup (a := []) (by simp)
      (by simp; constructor <;> (intros; omega)) (by rw [hm]; decide))
    (by simp [SaneOp]) (by omega) (by omega) (by rw [hm]; omega)
    (fun m => noFlood_small (by simp [pins]))
    (by simp [Legal, LegalOp])
  exact h

/-- **C20 (finding).** The field saying that an entry is permanent is not
initialised when a file is read.  If the allocator left a nonzero byte there,
the entry is loaded but can never be replaced: the next insertion under that key
is refused. -/
theorem load_junk_is_kept : ∃ file h, Hash.readHash (fun _ => 0) (fun _ => true) 40 file = .ok h ∧
    h.listing = some [([1], [10], 500)] ∧
    h.add (fun _ => 0) 100 [1] [11] 60 1 = .err := by
  refine ⟨Hash.fileHead ++ encRec ([1], [10], 500), ?_⟩
  have g : GoodRec [1] [10] 500 := ⟨by simp, by simp, by simp, by simp, by omega, by omega⟩
  have S : Savable (fun _ => 0)
      (⟨fun i => if i = 0 then [⟨0, [1], [10], 500, false⟩] else [], 0, [0], 1, 40, 1⟩ : Hash)
      [⟨0, [1], [10], 500, false⟩] [] 40 := by
    refine ⟨⟨⟨?_, ?_, by simp, by simp, by simp, by simp⟩, by simp, by simp, by simp⟩, ?_, by simp,
      by omega, by omega⟩
    · intro i e
      by_cases hi : i = 0 <;> simp [hi, Hash.bucket]
      intro _ h; exact hi h.symm
    · intro i
      by_cases hi : i = 0 <;> simp [hi]
    · intro e he
      simp only [List.mem_singleton] at he
      subst he; exact g
  obtain ⟨file, h', h1, h2, h3, -, es', L, hj⟩ := load_truncated (fun _ => 0) (fun _ => 0)
    (fun _ => true) S (8 + (encRec ([1], [10], 500)).length) (by omega)
  have hw := S.write
  rw [hw] at h1
  have hfe := Res.ok.inj h1
  simp only [List.reverse_singleton, List.flatMap_singleton, Elem.rec'] at hfe
  rw [← hfe, List.take_of_length_le (by simp [Hash.fileHead]; omega)] at h2
  have h3' : h'.listing = some [([1], [10], 500)] := by
    rw [h3]
    simp [complete, Elem.rec']
  refine ⟨h', h2, h3', ?_⟩
  rw [L.listing] at h3'
  have h4 := Option.some.inj h3'
  obtain ⟨e, rfl⟩ : ∃ e, es' = [e] := by
    have := congrArg List.length h4
    simp at this
    exact List.length_eq_one_iff.1 this
  simp only [List.map_cons, List.map_nil, List.cons.injEq, and_true] at h4
  have hk : e.key = [1] := congrArg Prod.fst h4
  have hgrep : h'.grep (fun _ => 0) [1] = some e := by
    rw [L.t.grep_eq _ (Nat.le_trans (L.t.chain_le _) (by simp))]
    simp [Hash.lfind, hk]
  have hgrep2 : ({ h' with next := h'.next + 1 } : Hash).grep (fun _ => 0) [1] = some e := hgrep
  have := hj e (by simp)
  simp [Hash.add, Hash.placeNew, Hash.zap, hgrep2, this]

/-- A cut file: the second (more recent) record is lost, the first survives. -/
example : complete [([1], [10], 500), ([2], [20], 600)] 40 =
    [([1], [10], 500), ([2], [20], 600)].take 2 ∧
    complete [([1], [10], 500), ([2], [20], 600)] 35 = [([1], [10], 500)] := by decide +kernel

/-- A file of a wrong kind is rejected; a file of garbage after the marker loads. -/
example : Hash.readHash (fun _ => 0) (fun _ => false) 40 [1, 2, 3] = .err := by rfl

end Dw
