import Verif.Spec.Incoming
/-!
# Specification: who may be believed

A resolver is given the servers of some zones.  Whatever else it takes for the servers of a zone, and whatever answers it
keeps, it has heard from servers which may speak for the name.  What was heard is a list of pairs: the list of servers
that the sender was taken from, and the bytes of the message.
-/

namespace Spec

/-- The message says who serves `z`: its authority records have an NS or SOA record for it. -/
def Msg.Delegates (m : Msg) (z : List (List UInt8)) : Prop :=
  ∃ r ∈ m.ns, SameName r.name z ∧ (r.type = 2 ∨ r.type = 6)

/-- `l` are servers that may speak for `zone`: they were configured, or servers that may speak for a zone above it were heard
to refer to them, asked for a name in `zone`.  A list begins with the name of the zone it is for. -/
inductive Trusted (conf : List (List (List UInt8) × List UInt8)) (heard : List (List UInt8 × List UInt8)) :
    List (List UInt8) → List UInt8 → Prop
  | configured {zone l} (h : (zone, l) ∈ conf) : Trusted conf heard zone l
  | referred {above zone : List (List UInt8)} {l c x : List UInt8} {m : Msg} (by_ : Trusted conf heard above l)
      (said : (l, c) ∈ heard) (from_ : m.From c) (asked : Below m.qname above) (may : MayDelegate above m.qname zone)
      (delegates : m.Delegates zone) : Trusted conf heard zone (encName zone ++ x)

/-- What is kept as the answer because of a message: some of its answers; that there is none, with its authority records and
addresses; or an additional record with the name and type asked for. -/
def Msg.Answers (m : Msg) (value : List UInt8) : Prop :=
  (∃ rs ks, rs.Sublist m.an ∧ SameRecs rs ks ∧ value = (⟨ks, [], [], 0⟩ : Spec.Answers).packed.enc) ∨
  (m.an = [] ∧ ∃ d, SameAnswers (denial m.answers) d ∧ value = d.packed.enc) ∨
  (m.an = [] ∧ ∃ r ∈ m.ar, Alike m.qname r.name ∧ r.type = m.qtype ∧ ∃ k, SameRec r k ∧
    value = (⟨[k], [], [], 0⟩ : Spec.Answers).packed.enc)

/-- What is kept as the aliases because of a message: some of its answers, all of them aliases. -/
def Msg.Aliases (m : Msg) (value : List UInt8) : Prop :=
  ∃ rs ks, rs.Sublist m.an ∧ (∀ r ∈ rs, r.type = 5) ∧ SameRecs rs ks ∧ value = aliases ks

/-- The message `m` was heard, in reply to the question for `q` and the type `t`, from servers that may speak for `q`. -/
def Heard (conf : List (List (List UInt8) × List UInt8)) (heard : List (List UInt8 × List UInt8))
    (q : List (List UInt8)) (t : Nat) (m : Msg) : Prop :=
  ∃ zone l c, Trusted conf heard zone l ∧ Below q zone ∧ (l, c) ∈ heard ∧ m.From c ∧ lowered m.qname = q ∧ m.qtype = t

/-- The aliases `value` of `q` were heard. -/
def Aliased (conf : List (List (List UInt8) × List UInt8)) (heard : List (List UInt8 × List UInt8))
    (q : List (List UInt8)) (value : List UInt8) : Prop :=
  ∃ t m, Heard conf heard q t m ∧ m.Aliases value

/-- `value` is an answer for `q` and the type `t` that was heard, or was made of aliases of `q` and another answer (`join`
says how). -/
inductive Answered (conf : List (List (List UInt8) × List UInt8)) (heard : List (List UInt8 × List UInt8))
    (join : List UInt8 → List UInt8 → List UInt8 → Prop) : List (List UInt8) → Nat → List UInt8 → Prop
  | told {q t value m} (h : Heard conf heard q t m) (ans : m.Answers value) : Answered conf heard join q t value
  | joined {q t value as q' t' value'} (al : Aliased conf heard q as) (rest : Answered conf heard join q' t' value')
      (made : join as value' value) : Answered conf heard join q t value

theorem Trusted.mono {conf heard heard'} (hh : ∀ x ∈ heard, x ∈ heard') {z l} (h : Trusted conf heard z l) :
    Trusted conf heard' z l := by
  induction h with
  | configured h => exact .configured h
  | referred _ said from_ asked may del ih => exact .referred ih (hh _ said) from_ asked may del

theorem Heard.mono {conf heard heard'} (hh : ∀ x ∈ heard, x ∈ heard') {q t m} (h : Heard conf heard q t m) :
    Heard conf heard' q t m := by
  obtain ⟨z, l, c, h1, h2, h3, h4⟩ := h
  exact ⟨z, l, c, h1.mono hh, h2, hh _ h3, h4⟩

theorem Aliased.mono {conf heard heard'} (hh : ∀ x ∈ heard, x ∈ heard') {q v} (h : Aliased conf heard q v) :
    Aliased conf heard' q v := by
  obtain ⟨t, m, h, h'⟩ := h
  exact ⟨t, m, h.mono hh, h'⟩

theorem Answered.mono {conf heard heard' join} (hh : ∀ x ∈ heard, x ∈ heard') {q t v} (h : Answered conf heard join q t v) :
    Answered conf heard' join q t v := by
  induction h with
  | told h a => exact .told (h.mono hh) a
  | joined al _ m ih => exact .joined (al.mono hh) ih m

end Spec
