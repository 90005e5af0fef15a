import Verif.InlineCpp.Thunk
import Mathlib.Data.List.Nodup

/-
C157: the names of thunks: valid identifiers, one per block, the same in C++ and in Rust.
-/

namespace Verif.InlineCpp

theorem hexDigit_inj : ∀ a < 16, ∀ b < 16, hexDigit a = hexDigit b → a = b := by decide

theorem hexDigits_length (n v : Nat) : (hexDigits n v).length = n := by
  induction n generalizing v with
  | zero => rfl
  | succ n ih => simp [hexDigits, ih]

theorem hexDigits_inj (n : Nat) : ∀ {v v' : Nat}, v < 16 ^ n → v' < 16 ^ n →
    hexDigits n v = hexDigits n v' → v = v' := by
  induction n with
  | zero => intro v v' h h' _; simp at h h'; omega
  | succ n ih =>
    intro v v' h h' e
    rw [hexDigits, hexDigits] at e
    obtain ⟨e1, e2⟩ := List.append_inj e (by rw [hexDigits_length, hexDigits_length])
    have h1 := ih (by rw [Nat.pow_succ] at h; omega) (by rw [Nat.pow_succ] at h'; omega) e1
    have h2 := hexDigit_inj (v % 16) (Nat.mod_lt _ (by decide)) (v' % 16) (Nat.mod_lt _ (by decide))
      (by simpa using e2)
    omega

theorem thunkHash_lt (target file : List Nat) (l c : Nat) : thunkHash target file l c < 2 ^ 64 :=
  fnvWrite_lt _ _ (fnvWrite_lt _ _ (fnvWrite_lt _ _ (fnvWrite_lt _ _ (by decide))))

theorem thunkName_eq {target file target' file' : List Char} {l c l' c' : Nat}
    (h : thunkName target file l c = thunkName target' file' l' c') :
    escape (baseName file) = escape (baseName file') ∧
    thunkHash (utf8 target) (utf8 file) l c = thunkHash (utf8 target') (utf8 file') l' c' := by
  unfold thunkName at h
  generalize "inline_cpp_thunk_".toList = p at h
  rw [List.append_assoc, List.append_assoc] at h
  have h := List.append_cancel_left h
  have hl := congrArg List.length h
  simp only [List.length_append, List.length_cons, hexDigits_length] at hl
  obtain ⟨h1, h2⟩ := List.append_inj h (by omega)
  simp only [List.cons.injEq, true_and] at h2
  exact ⟨h1, hexDigits_inj 16 (thunkHash_lt _ _ _ _) (thunkHash_lt _ _ _ _) h2⟩

/-- C157: two invocations at different places of a file get different names. -/
theorem thunkName_inj (target file : List Char) {l c l' c' : Nat} (hl : l < 65536) (hl' : l' < 65536)
    (hc : c < 256) (hc' : c' < 256) (h : thunkName target file l c = thunkName target file l' c') :
    l = l' ∧ c = c' :=
  thunkHash_inj _ _ hl hl' hc hc' (thunkName_eq h).2

/-- C157: so do invocations in files whose names are spelled differently (`.` and `-` aside). -/
theorem thunkName_files {target target' file file' : List Char} {l c l' c' : Nat}
    (hf : escape (baseName file) ≠ escape (baseName file')) :
    thunkName target file l c ≠ thunkName target' file' l' c' :=
  fun h => hf (thunkName_eq h).1

/-- A character of a C++ and Rust identifier. -/
def identChar (c : Char) : Bool := c.isAlphanum || c == '_'

theorem hexDigit_ident : ∀ d < 16, identChar (hexDigit d) = true := by decide

theorem hexDigits_ident (n v : Nat) : ∀ c ∈ hexDigits n v, identChar c = true := by
  induction n generalizing v with
  | zero => simp [hexDigits]
  | succ n ih =>
    intro c hc
    rw [hexDigits] at hc
    rcases List.mem_append.1 hc with h | h
    · exact ih _ c h
    · rw [List.mem_singleton.1 h]; exact hexDigit_ident _ (Nat.mod_lt _ (by decide))

/-- C157: the names are identifiers if file names are made of letters, digits, `_`, `.` and `-`. -/
theorem thunkName_ident (target file : List Char) (l c : Nat)
    (hf : ∀ x ∈ baseName file, identChar x = true ∨ x = '.' ∨ x = '-') :
    (∃ r, thunkName target file l c = 'i' :: r) ∧ ∀ x ∈ thunkName target file l c, identChar x = true := by
  constructor
  · exact ⟨_, rfl⟩
  · intro x hx
    unfold thunkName at hx
    rcases List.mem_append.1 hx with hx | hx
    · rcases List.mem_append.1 hx with hx | hx
      · have : ∀ y ∈ "inline_cpp_thunk_".toList, identChar y = true := by decide +kernel
        exact this x hx
      · unfold escape at hx
        obtain ⟨y, hy, rfl⟩ := List.mem_map.1 hx
        split
        · rfl
        · rename_i hn
          rcases hf y hy with h | h | h
          · exact h
          · exact absurd (.inl h) hn
          · exact absurd (.inr h) hn
    · rcases List.mem_cons.1 hx with rfl | hx
      · rfl
      · exact hexDigits_ident _ _ x hx

/-! ### One name per block -/

theorem place_inj {a b : List Char} (h1 : lineOf (a ++ b) = lineOf a) (h2 : colOf (a ++ b) = colOf a) :
    b = [] := by
  have hb : '\n' ∉ b := by
    simp only [lineOf, List.count_append] at h1
    exact List.count_eq_zero.1 (by omega)
  rw [colOf_append_noNl _ _ hb] at h2
  exact List.length_eq_zero_iff.1 (by omega)

theorem nameOf_ne (k : Kind) : nameOf k ≠ [] := by
  cases k <;> decide

theorem segs_text {k : Kind} {p : List Tok} (h : Segs k p) : src p ≠ [] := by
  induction h with
  | last t hi hn =>
    rw [src_cons, hn]
    intro e
    exact nameOf_ne k (List.append_eq_nil_iff.1 e).1
  | seg t c₁ c₂ p hi hn h₁ h₂ _ ih =>
    intro e
    have : c₁ :: c₂ :: p = [c₁, c₂] ++ p := rfl
    rw [src_cons, this, src_append] at e
    simp only [List.append_eq_nil_iff] at e
    exact ih e.2.2

theorem header_text {k : Kind} {h : List Tok} (hh : Header k h) : src h ≠ [] := by
  obtain ⟨p, w₁, bang, w₂, brace, rfl, hp, -⟩ := hh.shape
  intro e
  rw [List.append_assoc, List.append_assoc, src_append, List.append_eq_nil_iff] at e
  cases hp with
  | rel _ hs => exact segs_text hs e.1
  | abs c₁ c₂ p _ _ hs =>
    have h2 := e.1
    have : c₁ :: c₂ :: p = [c₁, c₂] ++ p := rfl
    rw [this, src_append, List.append_eq_nil_iff] at h2
    exact segs_text hs h2.2

/-- Blocks of the file are at different places. -/
theorem blocks_places {pre ts : List Tok} {ms : List Macro} (h : Blocks pre ts ms) :
    (ms.map fun m => (m.line, m.col)).Nodup := by
  induction h with
  | done => simp
  | block pre gap hd body rest k close ms hg hh hb hc hr ih =>
    rw [List.map_cons, List.nodup_cons]
    refine ⟨?_, ih⟩
    intro hm
    obtain ⟨m, hmm, e⟩ := List.mem_map.1 hm
    -- the later block is further on in the text
    have later : ∀ {pre ts : List Tok} {ms : List Macro}, Blocks pre ts ms → ∀ m ∈ ms, ∃ t,
        m.line = lineOf (src pre ++ t) ∧ m.col = colOf (src pre ++ t) := by
      intro pre ts ms h
      induction h with
      | done => simp
      | block pre gap hd body rest k close ms _ _ _ _ _ ih =>
        intro m hm
        rcases List.mem_cons.1 hm with rfl | hm
        · exact ⟨src gap, by simp [report, src_append], by simp [report, src_append]⟩
        · obtain ⟨t, h1, h2⟩ := ih m hm
          exact ⟨src gap ++ src hd ++ src body ++ src [close] ++ t, by rw [h1]; simp [src_append],
            by rw [h2]; simp [src_append]⟩
    obtain ⟨t, h1, h2⟩ := later hr m hmm
    simp only [report, Prod.mk.injEq] at e
    have e1 : src (pre ++ gap ++ hd ++ body ++ [close]) ++ t =
        src (pre ++ gap) ++ (src hd ++ src body ++ src [close] ++ t) := by simp [src_append]
    have := place_inj (a := src (pre ++ gap)) (b := src hd ++ src body ++ src [close] ++ t)
      (by rw [← e1, ← h1, e.1]) (by rw [← e1, ← h2, e.2])
    simp only [List.append_eq_nil_iff] at this
    exact header_text hh this.1.1.1

/-- C157: the blocks of a file have pairwise different names, if the file has fewer than 65536 lines
and no block begins at column 256 or later. -/
theorem thunks_distinct (target file : List Char) {ts : List Tok} {ms : List Macro}
    (h : parse ts = .ok ms) (hb : ∀ m ∈ ms, m.line < 65536 ∧ m.col < 256) :
    (ms.map fun m => thunkName target file m.line m.col).Nodup := by
  have hp := blocks_places ((parse_ok_iff ts ms).1 h)
  have e : (ms.map fun m => thunkName target file m.line m.col) =
      (ms.map fun m => (m.line, m.col)).map (fun p => thunkName target file p.1 p.2) := by
    simp [List.map_map]
  rw [e]
  apply List.Nodup.map_on _ hp
  intro x hx y hy hxy
  obtain ⟨m, hm, rfl⟩ := List.mem_map.1 hx
  obtain ⟨m', hm', rfl⟩ := List.mem_map.1 hy
  obtain ⟨h1, h2⟩ := thunkName_inj target file (hb m hm).1 (hb m' hm').1 (hb m hm).2 (hb m' hm').2 hxy
  exact Prod.ext h1 h2

/-- C157: the function an `inline_cpp!` invocation calls is defined in the header, from the body
of that invocation: the name is computed from the place where the path to the macro begins. -/
theorem expansion_defined {lex : List Char → List Tok} {target : List Char}
    {files : List (List Char × List Tok)} {out : List Char} (h : header lex target files = some out)
    {file : List Char} {ts : List Tok} (hf : (file, ts) ∈ files)
    {ms : List Macro} (hms : Blocks [] ts ms) {m : Macro} (hm : m ∈ ms) (hk : m.kind = .inlineCpp) :
    ∃ pre path rest before after body gap, ts = pre ++ path ++ rest ∧ Path .inlineCpp path ∧
      out = before ++ ("inline auto ".toList ++
        macroName target file (lineOf (src pre)) (colOf (src pre)) ++ "\n".toList ++ gap ++ body) ++ after ∧
      body = m.bodyText ∧ ∃ n, gap = "#line ".toList ++ Nat.toDigits 10 n ++ " \"".toList ++ file ++
        "\"\n".toList ++ List.replicate (m.bodyCol - 1) ' ' := by
  obtain ⟨ms', hp, -, hi⟩ := header_spec h _ hf
  have := blocks_unique hms ((parse_ok_iff ts ms').1 hp)
  subst this
  obtain ⟨a, k, hd, body, rest, e, hh, hrep⟩ := blocks_mem hms m hm
  rw [List.nil_append] at e
  obtain ⟨p, w₁, bang, w₂, brace, rfl, hpath, -⟩ := hh.shape
  have hkk : k = .inlineCpp := by rw [hrep] at hk; exact hk
  subst hkk
  obtain ⟨before, after, e2, -⟩ := hi m hm hk
  have hline : m.line = lineOf (src a) := by rw [hrep]; rfl
  have hcol : m.col = colOf (src a) := by rw [hrep]; rfl
  refine ⟨a, p, w₁ ++ bang :: w₂ ++ [brace] ++ body ++ rest, before, "\n".toList ++ after, m.bodyText, _,
    by rw [e]; simp, hpath, ?_, rfl, m.bodyLine, rfl⟩
  rw [e2]
  unfold thunkPiece macroName linePiece
  rw [hline, hcol]
  generalize thunkName target file (lineOf (src a)) (colOf (src a)) = x
  generalize "inline auto ".toList = s₁
  generalize "\n".toList = s₂
  generalize "#line ".toList = s₃
  generalize " \"".toList = s₄
  generalize "\"\n".toList = s₅
  simp only [List.append_assoc]

end Verif.InlineCpp
