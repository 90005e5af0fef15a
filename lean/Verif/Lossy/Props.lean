import Verif.Lossy.Lemmas
/- LossyFormatter properties C18-C21. -/
namespace Verif.Lossy
open Verif.Utf8

/-! ### The effect of one call, relative to the decoding of everything still to come -/

/-- Everything emitted between `f` and `f'` is the beginning of the decoding of the pending bytes of
`f` followed by `d`, and the pending bytes of `f'` stand for the rest. -/
def Sim (f f' : Fmt) (d : List Nat) : Prop :=
  ∃ e, output f'.log = output f.log ++ encodeAll e ∧
    ∀ rest text, Decodes (f'.pending ++ rest) text → Decodes (f.pending ++ d ++ rest) (e ++ text)

/-- Everything emitted between `f` and `f'` is the beginning of the decoding. -/
def Pre (f f' : Fmt) (d : List Nat) : Prop :=
  ∃ e, output f'.log = output f.log ++ encodeAll e ∧
    ∀ rest text, Decodes (f.pending ++ d ++ rest) text → e <+: text

structure Step (f f' : Fmt) (d : List Nat) (ok : Bool) : Prop where
  log : ∃ es, f'.log = f.log ++ es ∧ (ok = true ↔ NoFailure es)
  pend : PendOk f'.pending
  sim : ok = true → Sim f f' d
  pre : Pre f f' d

theorem Sim.pre {f f' : Fmt} {d : List Nat} (h : Sim f f' d) : Pre f f' d := by
  obtain ⟨e, h1, h2⟩ := h
  refine ⟨e, h1, fun rest text hd => ?_⟩
  obtain ⟨t, ht⟩ := decodes_exists (f'.pending ++ rest)
  rw [decodes_unique hd (h2 rest t ht)]
  exact List.prefix_append _ _

theorem Step.trans {f f1 f2 : Fmt} {d1 d2 : List Nat} {ok : Bool} (a : Step f f1 d1 true) (b : Step f1 f2 d2 ok) :
    Step f f2 (d1 ++ d2) ok := by
  obtain ⟨es1, l1, n1⟩ := a.log
  obtain ⟨es2, l2, n2⟩ := b.log
  obtain ⟨e1, o1, s1⟩ := a.sim rfl
  refine ⟨⟨es1 ++ es2, by simp [l2, l1], ?_⟩, b.pend, ?_, ?_⟩
  · rw [n2]
    have := n1.mp rfl
    constructor
    · intro h x hx
      rcases List.mem_append.mp hx with hx | hx
      · exact this x hx
      · exact h x hx
    · intro h x hx; exact h x (List.mem_append.mpr (.inr hx))
  · intro hok
    obtain ⟨e2, o2, s2⟩ := b.sim hok
    refine ⟨e1 ++ e2, by simp [o2, o1, encodeAll], fun rest text h => ?_⟩
    have := s1 (d2 ++ rest) (e2 ++ text) (by simpa using s2 rest text h)
    simpa using this
  · obtain ⟨e2, o2, s2⟩ := b.pre
    refine ⟨e1 ++ e2, by simp [o2, o1, encodeAll], fun rest text h => ?_⟩
    obtain ⟨t, ht⟩ := decodes_exists (f1.pending ++ d2 ++ rest)
    have h3 := s1 (d2 ++ rest) t (by simpa using ht)
    have : text = e1 ++ t := decodes_unique h (by simpa using h3)
    subst this
    exact (List.prefix_append_right_inj e1).mpr (s2 rest t ht)

theorem Step.stop {f f1 : Fmt} {d1 d2 : List Nat} (a : Step f f1 d1 false) : Step f f1 (d1 ++ d2) false := by
  refine ⟨a.log, a.pend, by simp, ?_⟩
  obtain ⟨e, h1, h2⟩ := a.pre
  exact ⟨e, h1, fun rest text h => h2 (d2 ++ rest) text (by simpa using h)⟩

theorem Step.refl (f : Fmt) (h : PendOk f.pending) : Step f f [] true := by
  have : Sim f f [] := ⟨[], by simp [encodeAll], fun rest text h => by simpa using h⟩
  exact ⟨⟨[], by simp, by simp [NoFailure]⟩, h, fun _ => this, this.pre⟩

@[simp] theorem output_append (a b : Log) : output (a ++ b) = output a ++ output b := by simp [output]

/-- A single write of the decoding of the next scalars. -/
theorem step_write (k : Sink) (f : Fmt) (p : List Nat) (o : Op) (d e : List Nat) (he : o.bytes = encodeAll e)
    (hp : PendOk p)
    (hd : ∀ rest text, Decodes (p ++ rest) text → Decodes (f.pending ++ d ++ rest) (e ++ text)) :
    Step f (write k ⟨f.log, p⟩ o).1 d (write k ⟨f.log, p⟩ o).2 := by
  simp only [write]
  refine ⟨⟨[(o, k f.log o)], rfl, ?_⟩, hp, ?_, ?_⟩
  · simp [NoFailure]
  · intro hk
    refine ⟨e, ?_, hd⟩
    simp [output, hk, he]
  · cases hk : k f.log o with
    | false => exact ⟨[], by simp [output, encodeAll], fun rest text _ => List.nil_prefix⟩
    | true =>
      refine Sim.pre ⟨e, ?_, hd⟩
      simp [output, he]

theorem writeTwo_step (k : Sink) (f : Fmt) (a b : Nat) (d : List Nat)
    (hd : ∀ rest text, Decodes rest text → Decodes (f.pending ++ d ++ rest) (a :: b :: text)) :
    Step f (writeTwo k ⟨f.log, []⟩ a b).1 d (writeTwo k ⟨f.log, []⟩ a b).2 := by
  simp only [writeTwo, write]
  rcases Bool.eq_false_or_eq_true (k f.log (.char a)) with h1 | h1
  rotate_left
  · simp only [h1, Bool.false_eq_true, if_false]
    refine ⟨⟨[(.char a, false)], by simp, by simp [NoFailure]⟩, .inl rfl, by simp, ?_⟩
    exact ⟨[], by simp [output, encodeAll], fun rest text _ => List.nil_prefix⟩
  · simp only [h1, if_true]
    rcases Bool.eq_false_or_eq_true (k (f.log ++ [(Op.char a, true)]) (.char b)) with h2 | h2
    rotate_left
    · rw [h2]
      refine ⟨⟨[(.char a, true), (.char b, false)], by simp, by simp [NoFailure]⟩, .inl rfl, by simp, ?_⟩
      refine ⟨[a], by simp [output, encodeAll, Op.bytes], fun rest text h => ?_⟩
      obtain ⟨t, ht⟩ := decodes_exists rest
      rw [decodes_unique h (hd rest t ht)]
      exact ⟨b :: t, rfl⟩
    · rw [h2]
      have : Sim f ⟨f.log ++ [(.char a, true)] ++ [(.char b, true)], []⟩ d :=
        ⟨[a, b], by simp [output, encodeAll, Op.bytes], fun rest text h => hd rest text (by simpa using h)⟩
      exact ⟨⟨[(.char a, true), (.char b, true)], by simp, by simp [NoFailure]⟩, .inl rfl, fun _ => this, this.pre⟩

theorem writeByte_step (k : Sink) (f : Fmt) (d : Nat) (hp : PendOk f.pending) :
    ∃ f' ok, writeByte k f d = some (f', ok) ∧ Step f f' [d] ok := by
  obtain ⟨st, p', h1, h2⟩ := push_spec f.pending d hp
  have hp' := h2.pendOk
  simp only [writeByte, h1, Option.map_some]
  clear h1
  generalize hpd : f.pending = pd at h2
  refine ⟨_, _, rfl, ?_⟩
  cases h2 with
  | full hc he =>
    rename_i c
    refine step_write k f [] (.char c) [d] [c] (by simp [Op.bytes, encodeAll]) hp' ?_
    intro rest text h
    rw [hpd, he]; exact .char hc (by simpa using h)
  | more hq =>
    have : Sim f ⟨f.log, pd ++ [d]⟩ [d] := ⟨[], by simp [encodeAll], fun rest text h => by simpa [hpd] using h⟩
    exact ⟨⟨[], by simp, by simp [NoFailure]⟩, hp', fun _ => this, this.pre⟩
  | bad hb =>
    refine step_write k f [] (.char repl) [d] [repl] (by simp [Op.bytes, encodeAll]) hp' ?_
    intro rest text h
    rw [hpd]
    exact Decodes.badByte hb (by simpa using h)
  | stuckValid hm hq hf hc he =>
    rename_i c
    refine writeTwo_step k f _ _ [d] ?_
    intro rest text h
    rw [hpd, List.append_assoc]
    refine Decodes.stuck hm ?_ (Decodes.full hc he h)
    intro d' r' he; simp at he; obtain ⟨rfl, rfl⟩ := he; exact ⟨hq, hf⟩
  | stuckMore hm hq hf hd =>
    refine step_write k f [d] (.char repl) [d] [repl] (by simp [Op.bytes, encodeAll]) hp' ?_
    intro rest text h
    rw [hpd, List.append_assoc]
    refine Decodes.stuck hm ?_ h
    intro d' r' he; simp at he; obtain ⟨rfl, rfl⟩ := he; exact ⟨hq, hf⟩
  | stuckBad hm hq hf hb =>
    refine writeTwo_step k f _ _ [d] ?_
    intro rest text h
    rw [hpd, List.append_assoc]
    refine Decodes.stuck hm ?_ (Decodes.badByte hb h)
    intro d' r' he; simp at he; obtain ⟨rfl, rfl⟩ := he; exact ⟨hq, hf⟩

/-! ### Slices -/

/-- What `nextChunk` returns on a non-empty source. -/
structure ChunkSpec (src : List Nat) (c : Chunk) (rest : List Nat) : Prop where
  valid : ∃ cs, (∀ x ∈ cs, IsScalar x) ∧ c.valid = encodeAll cs
  eq : src = c.valid ++ c.invalid ++ rest
  inv : (c.invalid = [] ∧ rest = []) ∨
    (partialB c.invalid = true ∧ ∀ d r', rest = d :: r' → partialB (c.invalid ++ [d]) = false ∧ fullB (c.invalid ++ [d]) = false) ∨
    (∃ d, c.invalid = [d] ∧ charWidth d = 0)

theorem nextChunk_spec (src : List Nat) : ChunkSpec src (nextChunk src).1 (nextChunk src).2 := by
  induction hn : src.length using Nat.strongRecOn generalizing src with
  | ind n ih =>
    by_cases h : src = []
    · subst h
      rw [nextChunk_nil]
      exact ⟨⟨[], by simp, by simp [encodeAll]⟩, by simp, .inl (by simp)⟩
    · obtain ⟨n', ok, hh⟩ := head_exists src h
      cases hh with
      | @full m r hf =>
        obtain ⟨c, hc, he, -⟩ := full_encode hf
        have : 1 ≤ m.length := by rw [he]; exact (encode_length c).1
        obtain ⟨⟨cs, h1, h2⟩, h3, h4⟩ := ih r.length (by simp at hn; omega) r rfl
        rw [nextChunk_full hf]
        refine ⟨⟨c :: cs, ?_, ?_⟩, ?_, h4⟩
        · intro x hx; rcases List.mem_cons.mp hx with rfl | hx
          · exact hc
          · exact h1 x hx
        · simp [encodeAll, h2, he]
        · simpa using h3
      | @stuck m r hp hr =>
        rw [nextChunk_stuck hp hr]
        exact ⟨⟨[], by simp, by simp [encodeAll]⟩, by simp, .inr (.inl ⟨hp, hr⟩)⟩
      | @bad d r hb =>
        rw [nextChunk_bad hb]
        exact ⟨⟨[], by simp, by simp [encodeAll]⟩, by simp, .inr (.inr ⟨d, rfl, hb⟩)⟩

theorem decodes_valid {cs : List Nat} (h : ∀ c ∈ cs, IsScalar c) {r t : List Nat} (hr : Decodes r t) :
    Decodes (encodeAll cs ++ r) (cs ++ t) := by
  induction cs with
  | nil => simpa [encodeAll] using hr
  | cons c cs ih =>
    simp only [encodeAll, List.flatMap_cons, List.append_assoc, List.cons_append]
    exact .char (h c (by simp)) (ih fun c hc => h c (by simp [hc]))

theorem writeChunks_step (k : Sink) (src : List Nat) : ∀ (f : Fmt) (pr : Nat), f.pending = [] →
    ∃ f' n ok, writeChunks k f pr (utf8Chunks src) = some (f', pr + n) ∧ Step f f' src ok ∧
      n ≤ src.length ∧ (ok = true ↔ n = src.length) := by
  induction hn : src.length using Nat.strongRecOn generalizing src with
  | ind n ih =>
    intro f pr hf
    by_cases h : src = []
    · subst h
      simp only [List.length_nil] at hn
      exact ⟨f, 0, true, by simp [utf8Chunks_nil, writeChunks], Step.refl f (by simp [PendOk, hf]), by omega, by simp [← hn]⟩
    · have hlt := nextChunk_rest_lt src h
      have hlen0 : src.length ≠ 0 := by simpa using h
      obtain ⟨⟨cs, hcs, hv⟩, hsrc, hinv⟩ := nextChunk_spec src
      rw [utf8Chunks_cons h]
      generalize (nextChunk src).1 = c at *
      generalize (nextChunk src).2 = rest at *
      have hlen : src.length = c.valid.length + c.invalid.length + rest.length := by rw [hsrc]; simp [Nat.add_assoc]
      have hw := step_write k f f.pending (.str c.valid) c.valid cs (by simp [Op.bytes, hv]) (by simp [PendOk, hf])
        (by intro r t hd
            rw [hf] at hd ⊢
            rw [List.nil_append] at hd ⊢
            rw [hv]
            exact decodes_valid hcs hd)
      have hpw : (write k f (.str c.valid)).1.pending = [] := by simp [write, hf]
      have e0 : (⟨f.log, f.pending⟩ : Fmt) = f := rfl
      rw [e0] at hw
      simp only [writeChunks]
      generalize write k f (.str c.valid) = w at *
      obtain ⟨f1, ok1⟩ := w
      cases ok1 with
      | false =>
        refine ⟨f1, 0, false, by simp, ?_, by omega, by simp; omega⟩
        rw [hsrc, List.append_assoc]; exact hw.stop
      | true =>
        simp only [not_true_eq_false, if_false]
        simp only at hpw hw
        rcases hinv with ⟨hi, hr⟩ | ⟨hi, hr⟩ | ⟨d, hi, hb⟩
        · subst hr
          simp only [hi, fromUtf8_nil, List.isEmpty_nil, if_true, utf8Chunks_nil, writeChunks]
          refine ⟨f1, c.valid.length, true, rfl, ?_, by omega, by simp [hlen, hi, ← hn]⟩
          rw [hsrc, hi]; simpa using hw
        · simp only [fromUtf8_partial hi, Option.isSome_none, Bool.false_eq_true, or_false]
          rcases rest with - | ⟨d, r⟩
          · simp only [utf8Chunks_nil, List.isEmpty_nil, not_true_eq_false, if_false, copyFromSlice, (partial_length hi).2,
              if_true, writeChunks]
            refine ⟨⟨f1.log, c.invalid⟩, c.valid.length + c.invalid.length, true, by simp [Nat.add_assoc], ?_, by omega,
              by simp [hlen, ← hn]⟩
            have : Sim f1 ⟨f1.log, c.invalid⟩ c.invalid := ⟨[], by simp [encodeAll], fun rest text h => by simpa [hpw] using h⟩
            have h2 : Step f1 ⟨f1.log, c.invalid⟩ c.invalid true :=
              ⟨⟨[], by simp, by simp [NoFailure]⟩, .inr hi, fun _ => this, this.pre⟩
            rw [hsrc]; simpa using hw.trans h2
          · have hne : ((utf8Chunks (d :: r)).isEmpty = true) = False := by simp [utf8Chunks_eq_nil]
            simp only [hne, not_false_eq_true, if_true]
            cases hk : (write k f1 (.char repl)).2 with
            | false =>
              simp only [Bool.false_eq_true, not_false_eq_true, if_true]
              refine ⟨_, c.valid.length, false, rfl, ?_, by omega, by simp at hlen ⊢; omega⟩
              have h2 : Step f1 (write k f1 (.char repl)).1 (c.invalid ++ d :: r) false := by
                refine ⟨⟨[(.char repl, false)], by simpa [write] using hk, by simp [NoFailure]⟩, .inl (by simp [write, hpw]), by simp, ?_⟩
                refine ⟨[], ?_, fun _ _ _ => List.nil_prefix⟩
                simp only [write] at hk ⊢
                simp [output, hk, encodeAll]
              rw [hsrc, List.append_assoc]; exact hw.trans h2
            | true =>
              simp only [not_true_eq_false, if_false]
              have hp2 : (write k f1 (.char repl)).1.pending = [] := by simp [write, hpw]
              obtain ⟨f', m, ok, e1, s1, l1, i1⟩ := ih (d :: r).length (by omega) (d :: r) rfl
                (write k f1 (.char repl)).1 (pr + c.valid.length + c.invalid.length) hp2
              refine ⟨f', c.valid.length + c.invalid.length + m, ok, by rw [e1]; simp [Nat.add_assoc], ?_, by omega,
                by rw [i1]; omega⟩
              have h2 : Step f1 f' (c.invalid ++ d :: r) ok := by
                obtain ⟨es, le, ne⟩ := s1.log
                have o2 : output (write k f1 (.char repl)).1.log = output f1.log ++ encodeAll [repl] := by
                  simp only [write] at hk ⊢
                  simp [output, hk, encodeAll, Op.bytes]
                refine ⟨⟨(.char repl, true) :: es, ?_, ?_⟩, s1.pend, ?_, ?_⟩
                · rw [le]; simp only [write] at hk ⊢; simp [hk]
                · rw [ne]; simp [NoFailure]
                · intro hok
                  obtain ⟨e, oe, se⟩ := s1.sim hok
                  refine ⟨repl :: e, by rw [oe, o2]; simp [encodeAll], fun rest text h => ?_⟩
                  have := se rest text h
                  rw [hp2] at this
                  rw [hpw]
                  simp only [List.nil_append, List.append_assoc, List.cons_append] at this ⊢
                  refine Decodes.stuck hi ?_ this
                  intro d' r' he; simp at he; obtain ⟨rfl, rfl⟩ := he; exact hr _ _ rfl
                · obtain ⟨e, oe, se⟩ := s1.pre
                  refine ⟨repl :: e, by rw [oe, o2]; simp [encodeAll], fun rest text h => ?_⟩
                  obtain ⟨t, ht⟩ := decodes_exists ((d :: r) ++ rest)
                  rw [hpw] at h
                  simp only [List.nil_append, List.append_assoc, List.cons_append] at h ht
                  have hd2 := Decodes.stuck (m := c.invalid) (r := d :: (r ++ rest)) hi
                    (by intro d' r' he; simp at he; obtain ⟨rfl, rfl⟩ := he; exact hr _ _ rfl) ht
                  rw [decodes_unique h hd2]
                  have := se rest t (by rw [hp2]; simpa using ht)
                  exact (List.prefix_append_right_inj [repl]).mpr this
              rw [hsrc, List.append_assoc]; exact hw.trans h2
        · simp only [hi, fromUtf8_bad hb, Option.isSome_some, or_true, if_true]
          have hw2 := step_write k f1 f1.pending (.char repl) [d] [repl] (by simp [Op.bytes, encodeAll]) (by simp [PendOk, hpw])
            (by intro r t hd
                rw [hpw] at hd ⊢
                exact Decodes.badByte hb (by simpa using hd))
          have hp2 : (write k f1 (.char repl)).1.pending = [] := by simp [write, hpw]
          have e1 : (⟨f1.log, f1.pending⟩ : Fmt) = f1 := rfl
          rw [e1] at hw2
          generalize write k f1 (.char repl) = w at *
          obtain ⟨f2, ok2⟩ := w
          cases ok2 with
          | false =>
            simp only [Bool.false_eq_true, not_false_eq_true, if_true]
            refine ⟨f2, c.valid.length, false, rfl, ?_, by omega, by simp [hi] at hlen ⊢; omega⟩
            rw [hsrc, hi, List.append_assoc]; exact hw.trans hw2.stop
          | true =>
            simp only [not_true_eq_false, if_false]
            obtain ⟨f', m, ok, e1, s1, l1, i1⟩ := ih rest.length (by omega) rest rfl f2
              (pr + c.valid.length + [d].length) hp2
            refine ⟨f', c.valid.length + 1 + m, ok, by rw [e1]; simp [Nat.add_assoc], ?_, by simp [hi] at hlen; omega,
              by rw [i1]; simp [hi] at hlen; omega⟩
            rw [hsrc, hi, List.append_assoc]; exact hw.trans (hw2.trans s1)

theorem drain_step (k : Sink) (data : List Nat) : ∀ (f : Fmt) (pr : Nat), PendOk f.pending →
    ∃ f' n r, drain k f pr data = some (f', pr + n, r) ∧
      match r with
      | none => Step f f' data false ∧ n < data.length
      | some rest => ∃ d, data = d ++ rest ∧ d.length = n ∧ Step f f' d true ∧ (rest = [] ∨ f'.pending = []) := by
  induction data with
  | nil =>
    intro f pr hp
    exact ⟨f, 0, some [], by simp [drain], [], by simp, by simp, Step.refl f hp, .inl rfl⟩
  | cons b data ih =>
    intro f pr hp
    simp only [drain]
    by_cases he : f.pending = []
    · simp only [he, List.isEmpty_nil, if_true]
      exact ⟨f, 0, some (b :: data), by simp, [], by simp, by simp, Step.refl f hp, .inr he⟩
    · simp only [List.isEmpty_iff, he, if_false]
      obtain ⟨f1, ok, h1, s1⟩ := writeByte_step k f b hp
      rw [h1]
      cases ok with
      | false => exact ⟨f1, 0, none, rfl, s1.stop (d2 := data), by simp⟩
      | true =>
        obtain ⟨f', n, r, h2, h3⟩ := ih f1 (pr + 1) s1.pend
        refine ⟨f', n + 1, r, by simp only [h2]; simp [Nat.add_assoc, Nat.add_comm 1], ?_⟩
        cases r with
        | none =>
          obtain ⟨s2, l2⟩ := h3
          exact ⟨s1.trans s2, by simp; omega⟩
        | some rest =>
          obtain ⟨d, e1, e2, s2, e3⟩ := h3
          exact ⟨b :: d, by simp [e1], by simp [e2], s1.trans s2, e3⟩

theorem writeSlice_step (k : Sink) (f : Fmt) (data : List Nat) (hp : PendOk f.pending) :
    ∃ f' n ok, writeSlice k f data = some (f', n) ∧ Step f f' data ok ∧ n ≤ data.length ∧ (ok = true ↔ n = data.length) := by
  obtain ⟨f1, n, r, h1, h2⟩ := drain_step k data f 0 hp
  simp only [writeSlice, h1]
  cases r with
  | none =>
    obtain ⟨s, l⟩ := h2
    exact ⟨f1, n, false, by simp, s, by omega, by simp; omega⟩
  | some rest =>
    obtain ⟨d, rfl, rfl, s, hr⟩ := h2
    rcases hr with rfl | hr
    · exact ⟨f1, d.length, true, by simp [utf8Chunks_nil, writeChunks], by simpa using s, by simp, by simp⟩
    · obtain ⟨f2, m, ok, h3, s2, l2, i2⟩ := writeChunks_step k rest f1 (0 + d.length) hr
      exact ⟨f2, d.length + m, ok, by simp only [h3]; simp, s.trans s2, by simp; omega, by rw [i2]; simp⟩

/-! ### Fill -/

theorem fillBytes_step (k : Sink) (b : Nat) (count : Nat) : ∀ (f : Fmt), PendOk f.pending →
    ∃ f' n ok, fillBytes k f b count = some (f', n) ∧ Step f f' (List.replicate count b) ok ∧ n ≤ count ∧
      (ok = true ↔ n = count) := by
  induction count with
  | zero => intro f hp; exact ⟨f, 0, true, rfl, Step.refl f hp, by omega, by simp⟩
  | succ count ih =>
    intro f hp
    obtain ⟨f1, ok, h1, s1⟩ := writeByte_step k f b hp
    simp only [fillBytes, h1]
    cases ok with
    | false => exact ⟨f1, 0, false, rfl, s1.stop (d2 := List.replicate count b), by omega, by simp⟩
    | true =>
      obtain ⟨f', n, ok, h2, s2, l2, i2⟩ := ih f1 s1.pend
      exact ⟨f', n + 1, ok, by simp [h2], s1.trans s2, by omega, by rw [i2]; omega⟩

theorem ascii_full {b : Nat} (hb : b < 0x80) : fullB [b] = true := by simp [fullB, cw1, hb]
theorem ascii_not_cont {b : Nat} (hb : b < 0x80) {p : List Nat} (hp : partialB p = true) :
    partialB (p ++ [b]) = false ∧ fullB (p ++ [b]) = false := by
  have h1 : isCont b = false := by simp [isCont]; omega
  have h2 : ∀ a, second3 a b = false := by
    intro a; rw [← Bool.not_eq_true, second3_iff]; omega
  have h3 : ∀ a, second4 a b = false := by
    intro a; rw [← Bool.not_eq_true, second4_iff]; omega
  unfold partialB at hp
  split at hp
  · simp [partialB, fullB, h1, h2, h3]
  · simp [partialB, fullB, h1]
  · simp [partialB, fullB, h1]
  · simp at hp

theorem writeByte_ascii_empty (k : Sink) (f : Fmt) (b : Nat) (hb : b < 0x80) (hp : f.pending = []) :
    writeByte k f b = some (write k f (.char b)) := by
  have : push [] b = some (.valid b, []) := by
    have hc : firstChar [b] = some b := by simp [firstChar, hb]
    simp [push, chunks_full (ascii_full hb), fromUtf8_nil, hc]
  obtain ⟨log, p⟩ := f
  simp only at hp; subst hp
  simp [writeByte, this]

theorem fillChars_eq (k : Sink) (b : Nat) (hb : b < 0x80) (count : Nat) : ∀ (f : Fmt), f.pending = [] →
    fillBytes k f b count = some (fillChars k f b count) := by
  induction count with
  | zero => intro f hp; rfl
  | succ count ih =>
    intro f hp
    simp only [fillBytes, fillChars, writeByte_ascii_empty k f b hb hp]
    have hp2 : (write k f (.char b)).1.pending = [] := by simp [write, hp]
    generalize write k f (.char b) = w at *
    obtain ⟨f1, ok⟩ := w
    cases ok
    · simp
    · simp [ih f1 hp2]

/-- C21: `write_fill` is observationally equal to calling `write_byte` the given number of times,
stopping at the first error: same writes in the same order with the same outcomes, same pending
bytes, same count — for every sink. -/
theorem write_fill_eq_write_byte (k : Sink) (f : Fmt) (count b : Nat) (hp : PendOk f.pending) :
    writeFill k f count b = fillBytes k f b count := by
  unfold writeFill
  by_cases hb : b < 0x80
  · simp only [hb, not_true_eq_false, if_false]
    cases count with
    | zero => simp [fillBytes]
    | succ count =>
      simp only [Nat.add_eq_zero_iff, Nat.one_ne_zero, and_false, if_false]
      rcases hp with he | hp
      · simp only [he, List.isEmpty_nil, not_true_eq_false, if_false]
        exact (fillChars_eq k b hb _ f he).symm
      · have hne : f.pending ≠ [] := by intro h; rw [h] at hp; simp [partialB] at hp
        simp only [List.isEmpty_iff, hne, not_false_eq_true, if_true]
        obtain ⟨q1, q2⟩ := ascii_not_cont hb hp
        have hpush : push f.pending b = some (.invalidThenValid b, []) := by
          have hc : firstChar [b] = some b := by simp [firstChar, hb]
          have hch : utf8Chunks (f.pending ++ [b]) = ⟨[], f.pending⟩ :: utf8Chunks [b] := by
            rw [utf8Chunks_cons (by simp), nextChunk_stuck hp]
            rintro d' r' he; simp at he; obtain ⟨rfl, rfl⟩ := he; exact ⟨q1, q2⟩
          simp only [push, hch, chunks_full (ascii_full hb), fromUtf8_partial hp, fromUtf8_nil, hc]; simp
        simp only [fillBytes, writeByte, hpush, Option.map_some, writeTwo, fillChars]
        have hp2 : (write k ⟨f.log, []⟩ (.char repl)).1.pending = [] := by simp [write]
        generalize write k ⟨f.log, []⟩ (.char repl) = w at *
        obtain ⟨f1, ok⟩ := w
        cases ok
        · simp
        · simp only [not_true_eq_false, if_false, if_true]
          have hp3 : (write k f1 (.char b)).1.pending = [] := by simp [write]; exact hp2
          generalize write k f1 (.char b) = w at *
          obtain ⟨f2, ok⟩ := w
          cases ok
          · simp
          · simp [fillChars_eq k b hb _ f2 hp3]
  · simp [hb]

/-! ### Histories -/

theorem flush_step (k : Sink) (f : Fmt) :
    (flush k f).1.pending = [] ∧ ∃ es, (flush k f).1.log = f.log ++ es ∧ ((flush k f).2 = true ↔ NoFailure es) := by
  unfold flush
  by_cases he : f.pending = []
  · simp only [he, List.isEmpty_nil, if_true]
    exact ⟨trivial, [], by simp, by simp [NoFailure]⟩
  · simp only [List.isEmpty_iff, he, if_false, write]
    exact ⟨trivial, [(.char repl, k f.log (.char repl))], rfl, by simp [NoFailure]⟩

theorem call_step (k : Sink) (f : Fmt) (c : Call) (hp : PendOk f.pending) :
    ∃ f' n, call k f c = some (f', n) ∧ PendOk f'.pending ∧
      (c ≠ .flush → ∃ ok, Step f f' (inputOf c) ok ∧ n ≤ (inputOf c).length ∧ (ok = true ↔ n = (inputOf c).length)) := by
  cases c with
  | slice d =>
    obtain ⟨f', n, ok, h1, s, l, i⟩ := writeSlice_step k f d hp
    exact ⟨f', n, h1, s.pend, fun _ => ⟨ok, s, l, i⟩⟩
  | byte b =>
    obtain ⟨f', ok, h1, s⟩ := writeByte_step k f b hp
    refine ⟨f', if ok then 1 else 0, by simp [call, h1], s.pend, fun _ => ⟨ok, s, ?_, ?_⟩⟩
    · cases ok <;> simp [inputOf]
    · cases ok <;> simp [inputOf]
  | fill n b =>
    obtain ⟨f', m, ok, h1, s, l, i⟩ := fillBytes_step k b n f hp
    exact ⟨f', m, by simp [call, write_fill_eq_write_byte k f n b hp, h1], s.pend,
      fun _ => ⟨ok, s, by simpa [inputOf] using l, by simpa [inputOf] using i⟩⟩
  | flush =>
    exact ⟨_, _, rfl, .inl (flush_step k f).1, by simp⟩

theorem calls_total (k : Sink) (cs : List Call) : ∀ (f : Fmt), PendOk f.pending →
    ∃ f' ns, calls k f cs = some (f', ns) ∧ PendOk f'.pending := by
  induction cs with
  | nil => intro f hp; exact ⟨f, [], rfl, hp⟩
  | cons c cs ih =>
    intro f hp
    obtain ⟨f1, n, h1, hp1, -⟩ := call_step k f c hp
    obtain ⟨f2, ns, h2, hp2⟩ := ih f1 hp1
    exact ⟨f2, n :: ns, by simp [calls, h1, h2], hp2⟩

/-- C20: for every sink (failing arbitrarily) and every history of calls, nothing panics, and the
pending buffer is empty or a non-empty *proper* prefix of the encoding of a scalar, of at most three
bytes. -/
theorem never_panics (k : Sink) (cs : List Call) :
    ∃ f ns, calls k Fmt.new cs = some (f, ns) ∧ f.pending.length ≤ 3 ∧
      (f.pending = [] ∨ ∃ c, IsScalar c ∧ f.pending <+: encode c ∧ f.pending ≠ encode c) := by
  obtain ⟨f, ns, h, hp⟩ := calls_total k cs Fmt.new (.inl rfl)
  refine ⟨f, ns, h, ?_, ?_⟩
  · rcases hp with hp | hp
    · simp [hp]
    · exact (partial_length hp).2
  · rcases hp with hp | hp
    · exact .inl hp
    · exact .inr ((partial_iff _).mp hp).2

theorem calls_step (k : Sink) (cs : List Call) (hw : .flush ∉ cs) : ∀ (f : Fmt), PendOk f.pending →
    ∀ f' ns, calls k f cs = some (f', ns) →
      (∃ es, f'.log = f.log ++ es ∧ (NoFailure es → Step f f' (cs.flatMap inputOf) true) ∧
        (NoFailure es ↔ ns = cs.map fun c => (inputOf c).length)) := by
  induction cs with
  | nil =>
    intro f hp f' ns h
    simp [calls] at h
    obtain ⟨rfl, rfl⟩ := h
    exact ⟨[], by simp, fun _ => Step.refl f hp, by simp [NoFailure]⟩
  | cons c cs ih =>
    intro f hp f' ns h
    obtain ⟨f1, n, h1, hp1, hs⟩ := call_step k f c hp
    obtain ⟨ok, s, l, i⟩ := hs (by intro e; simp [e] at hw)
    simp only [calls, h1] at h
    cases hc : calls k f1 cs with
    | none => simp [hc] at h
    | some r =>
      obtain ⟨f2, ns2⟩ := r
      simp [hc] at h
      obtain ⟨rfl, rfl⟩ := h
      obtain ⟨es2, e2, s2, i2⟩ := ih (by intro hm; exact hw (by simp [hm])) f1 hp1 f2 ns2 hc
      obtain ⟨es1, e1, i1⟩ := s.log
      have hsplit : NoFailure (es1 ++ es2) ↔ NoFailure es1 ∧ NoFailure es2 := by
        constructor
        · intro h; exact ⟨fun x hx => h x (by simp [hx]), fun x hx => h x (by simp [hx])⟩
        · rintro ⟨a, b⟩ x hx
          rcases List.mem_append.mp hx with hx | hx
          · exact a x hx
          · exact b x hx
      refine ⟨es1 ++ es2, by simp [e2, e1], ?_, ?_⟩
      · intro hn
        obtain ⟨n1, n2⟩ := hsplit.mp hn
        have hok := i1.mpr n1
        subst hok
        simp only [List.flatMap_cons]
        exact s.trans (s2 n2)
      · rw [hsplit, ← i1, i, i2]; simp

/-- C18: any sequence of `write_slice` / `write_byte` / `write_fill` calls followed by `flush`, on a
sink that never reported an error, has output exactly the UTF-8 of the lossy decoding of the
concatenation of everything written — independently of how it was split into calls. -/
theorem chunking_irrelevant (k : Sink) (cs : List Call) (hw : .flush ∉ cs) (f : Fmt) (ns : List Nat)
    (h : calls k Fmt.new (cs ++ [.flush]) = some (f, ns)) (hn : NoFailure f.log)
    (text : List Nat) (hd : Decodes (cs.flatMap inputOf) text) :
    output f.log = encodeAll text ∧ f.pending = [] := by
  obtain ⟨f1, ns1, h1, hp1⟩ := calls_total k cs Fmt.new (.inl rfl)
  have happ : ∀ cs' (g : Fmt) g1 m1, calls k g cs' = some (g1, m1) →
      calls k g (cs' ++ [.flush]) = some ((flush k g1).1, m1 ++ [if (flush k g1).2 then 1 else 0]) := by
    intro cs'
    induction cs' with
    | nil => intro g g1 m1 hg; simp [calls] at hg; obtain ⟨rfl, rfl⟩ := hg; simp [calls, call]
    | cons c cs' ih =>
      intro g g1 m1 hg
      simp only [calls, List.cons_append] at hg ⊢
      cases hc : call k g c with
      | none => simp [hc] at hg
      | some r =>
        obtain ⟨g', n'⟩ := r
        simp only [hc] at hg ⊢
        cases hc2 : calls k g' cs' with
        | none => simp [hc2] at hg
        | some r =>
          obtain ⟨g2, n2⟩ := r
          simp [hc2] at hg
          obtain ⟨rfl, rfl⟩ := hg
          rw [ih g' g2 n2 hc2]; simp
  rw [happ cs _ _ _ h1] at h
  simp only [Option.some.injEq, Prod.mk.injEq] at h
  obtain ⟨rfl, -⟩ := h
  obtain ⟨hfp, fes, hfl, -⟩ := flush_step k f1
  obtain ⟨es, he, hs, -⟩ := calls_step k cs hw Fmt.new (.inl rfl) f1 ns1 h1
  have hne : NoFailure es := by
    intro x hx; apply hn x; rw [hfl, he]; simp [hx]
  obtain ⟨e, oe, se⟩ := (hs hne).sim rfl
  refine ⟨?_, hfp⟩
  simp only [Fmt.new, output, List.flatMap_nil, List.nil_append] at oe se
  by_cases hpe : f1.pending = []
  · have h2 := se [] [] (by simpa [hpe] using Decodes.nil)
    have : text = e := by simpa using decodes_unique hd (by simpa using h2)
    subst this
    simp only [flush, hpe, List.isEmpty_nil, if_true]
    exact oe
  · have hpar : partialB f1.pending = true := hp1.resolve_left hpe
    have hdec : Decodes (f1.pending ++ []) [0xFFFD] := Decodes.stuck hpar (by simp) .nil
    have h2 := se [] [0xFFFD] hdec
    have : text = e ++ [0xFFFD] := decodes_unique hd (by simpa using h2)
    subst this
    simp only [flush, List.isEmpty_iff, hpe, if_false, write] at hn ⊢
    have hk : k f1.log (.char repl) = true := hn (.char repl, _) (by simp)
    rw [hk, output_append, show output f1.log = encodeAll e from oe]
    simp [output, encodeAll, Op.bytes, repl]

/-- C18: consequence: two ways of splitting the same bytes give the same text. -/
theorem splits_agree (k₁ k₂ : Sink) (cs₁ cs₂ : List Call) (hw₁ : .flush ∉ cs₁) (hw₂ : .flush ∉ cs₂)
    (heq : cs₁.flatMap inputOf = cs₂.flatMap inputOf) (f₁ f₂ : Fmt) (ns₁ ns₂ : List Nat)
    (h₁ : calls k₁ Fmt.new (cs₁ ++ [.flush]) = some (f₁, ns₁)) (h₂ : calls k₂ Fmt.new (cs₂ ++ [.flush]) = some (f₂, ns₂))
    (n₁ : NoFailure f₁.log) (n₂ : NoFailure f₂.log) : output f₁.log = output f₂.log := by
  obtain ⟨t, ht⟩ := decodes_exists (cs₁.flatMap inputOf)
  rw [(chunking_irrelevant k₁ cs₁ hw₁ f₁ ns₁ h₁ n₁ t ht).1, (chunking_irrelevant k₂ cs₂ hw₂ f₂ ns₂ h₂ n₂ t (heq ▸ ht)).1]

/-- C18: the specification is a total function: every byte string has exactly one lossy decoding. -/
theorem decoding_exists_unique (src : List Nat) : ∃ t, Decodes src t ∧ ∀ u, Decodes src u → u = t := by
  obtain ⟨t, h⟩ := decodes_exists src
  exact ⟨t, h, fun u hu => decodes_unique hu h⟩

/-- C19: if everything written is well-formed UTF-8 in total, then — before any flush — the output is
exactly the input bytes and nothing is pending. -/
theorem valid_passes_through (k : Sink) (cs : List Call) (hw : .flush ∉ cs) (f : Fmt) (ns : List Nat)
    (h : calls k Fmt.new cs = some (f, ns)) (hn : NoFailure f.log) (hv : WellFormed (cs.flatMap inputOf)) :
    output f.log = cs.flatMap inputOf ∧ f.pending = [] := by
  obtain ⟨txt, hs, htxt⟩ := hv
  obtain ⟨es, he, hstep, -⟩ := calls_step k cs hw Fmt.new (.inl rfl) f ns h
  simp only [Fmt.new, List.nil_append] at he
  have st := hstep (he ▸ hn)
  obtain ⟨e, oe, se⟩ := st.sim rfl
  simp only [Fmt.new, output, List.flatMap_nil, List.nil_append] at oe se
  have hd : Decodes (cs.flatMap inputOf) txt := htxt ▸ decodes_wellFormed hs
  -- extend by one ASCII character: if something were pending a replacement character would appear
  rcases st.pend with hp | hp
  · have h2 := se [] [] (by simpa [hp] using Decodes.nil)
    have : txt = e := by simpa using decodes_unique hd (by simpa using h2)
    subst this
    exact ⟨by rw [htxt]; exact oe, hp⟩
  · exfalso
    obtain ⟨w, hwne, hfull⟩ := partial_complete hp
    obtain ⟨c, hc, hce, -⟩ := full_encode hfull
    -- completing the pending bytes yields e ++ [c]; but decoding continues from a clean state too
    have a1 := se w [c] (by simpa using Decodes.full (r := []) hc hce .nil)
    obtain ⟨t, ht⟩ := decodes_exists w
    have a2 : Decodes (cs.flatMap inputOf ++ w) (txt ++ t) := htxt ▸ decodes_valid hs ht
    have a3 := decodes_unique a1 a2
    -- and with nothing after: e ++ [FFFD] = txt
    have b1 := se [] [0xFFFD] (by simpa using Decodes.stuck hp (r := []) (by simp) .nil)
    have b2 : e ++ [0xFFFD] = txt := by simpa using decodes_unique (by simpa using b1) hd
    rw [← b2] at a3
    have ht0 : t = [] := by
      have := congrArg List.length a3
      simp at this; exact this
    subst ht0
    generalize hw' : w = w' at ht
    cases ht with
    | nil => exact hwne hw'

/-- C21: the count returned by `write_slice` / `write_fill` (and 1/0 for `write_byte`) never exceeds
the input length, and equals it iff no write to the sink failed during this call. -/
theorem count_faithful (k : Sink) (hist : List Call) (f : Fmt) (ns : List Nat) (hh : calls k Fmt.new hist = some (f, ns))
    (c : Call) (hc : c ≠ .flush) (f' : Fmt) (n : Nat) (h : call k f c = some (f', n)) :
    n ≤ (inputOf c).length ∧
    ∃ es, f'.log = f.log ++ es ∧ (n = (inputOf c).length ↔ NoFailure es) := by
  obtain ⟨f0, ns0, h0, hp⟩ := calls_total k hist Fmt.new (.inl rfl)
  rw [h0] at hh; simp at hh; obtain ⟨rfl, rfl⟩ := hh
  obtain ⟨f1, n1, h1, -, hs⟩ := call_step k f0 c hp
  rw [h1] at h; simp at h; obtain ⟨rfl, rfl⟩ := h
  obtain ⟨ok, s, l, i⟩ := hs hc
  obtain ⟨es, e, hn⟩ := s.log
  exact ⟨l, es, e, by rw [← i, hn]⟩

/-- C21: what has been accepted when a first write fails is a correct beginning: the output so far
is the UTF-8 of a prefix of the lossy decoding of the input (of any continuation of it). -/
theorem output_is_prefix (k : Sink) (hist : List Call) (hw : .flush ∉ hist) (f : Fmt) (ns : List Nat)
    (hh : calls k Fmt.new hist = some (f, ns)) (hn : NoFailure f.log) (c : Call) (hc : c ≠ .flush) (f' : Fmt) (n : Nat)
    (h : call k f c = some (f', n)) (rest text : List Nat)
    (hd : Decodes (hist.flatMap inputOf ++ inputOf c ++ rest) text) :
    ∃ e, e <+: text ∧ output f'.log = encodeAll e := by
  obtain ⟨f0, ns0, h0, hp⟩ := calls_total k hist Fmt.new (.inl rfl)
  rw [h0] at hh; simp at hh; obtain ⟨rfl, rfl⟩ := hh
  obtain ⟨es, he, hstep, -⟩ := calls_step k hist hw Fmt.new (.inl rfl) f0 ns0 h0
  simp only [Fmt.new, List.nil_append] at he
  have st := hstep (he ▸ hn)
  obtain ⟨f1, n1, h1, -, hs⟩ := call_step k f0 c hp
  rw [h1] at h; simp at h; obtain ⟨rfl, rfl⟩ := h
  obtain ⟨ok, s, -, -⟩ := hs hc
  obtain ⟨e, oe, pe⟩ := (st.trans s).pre
  simp only [Fmt.new, output, List.flatMap_nil, List.nil_append] at oe pe
  exact ⟨e, pe rest text (by simpa using hd), oe⟩

/-! ### Non-vacuity -/

/-- A sink that accepts everything. -/
def okSink : Sink := fun _ _ => true

/-- 💖 (F0 9F 92 96) split over slices and bytes, with an invalid byte and an ASCII fill after it. -/
example : ((calls okSink Fmt.new ([.slice [0x61, 0xF0, 0x9F], .byte 0x92, .slice [0x96, 0xFF], .byte 0xE2, .fill 2 0x62] ++ [.flush])).map
    fun r => (output r.1.log, r.2)) =
    some ([0x61, 0xF0, 0x9F, 0x92, 0x96, 0xEF, 0xBF, 0xBD, 0xEF, 0xBF, 0xBD, 0x62, 0x62], [3, 1, 2, 1, 2, 1]) := by
  decide +kernel

/-- a sink failing on its second write: the count is short -/
example : (calls (fun l _ => l.length != 1) Fmt.new [.slice [0x61, 0xFF, 0x62]]).map (·.2) = some [1] := by
  decide +kernel

end Verif.Lossy
