import Verif.Lemmas.Table
import Verif.Lemmas.TableColumns

/-! # Tables (C39, C40) -/
namespace Bant
namespace Props
open Table TableSpec

/-! ## C39: structured output can be parsed back -/

/-- As many cells as headers in all rows, and all characters are bytes. -/
structure C39_table (headers : List Str) (ops : List Op) : Prop where
  some_column : headers ≠ []
  headers_bytes : ∀ h ∈ headers, Bytes h
  fits : ∀ op ∈ ops, Fits headers op
  cells_bytes : ∀ op ∈ ops, ∀ x ∈ cellsOf op, Bytes x

/-- The output, in JSON, is an object for each row. -/
def C39_json_with (lit : Lit) (headers : List Str) (ops : List Op) : Prop :=
  ∃ text, output .json headers ops = some text ∧
    readJson lit text = some (ops.map fun op => headers.zip (valuesOf op))

/-- The output, as CSV, is the headers, then the rows. -/
def C39_csv_with (lit : Lit) (headers : List Str) (ops : List Op) : Prop :=
  ∃ text, output .csv headers ops = some text ∧ readCsv lit text = some (headers :: ops.flatMap rowsOf)

/-- **C39**, full statement: readers for JSON (RFC 8259), CSV (RFC 4180), S-expressions and property lists
get back what was put in. -/
def C39_statement : Prop :=
  ∀ (headers : List Str) (ops : List Op), C39_table headers ops → (∀ h ∈ headers, Symbol h) →
    C39_json_with jsonLit headers ops ∧ C39_csv_with csvLit headers ops ∧
    (∃ text, output .sexpr headers ops = some text ∧
      readSexpr cLit text = some (.opens :: ops.flatMap sexprRow ++ [.closes])) ∧
    (∃ text, output .plist headers ops = some text ∧
      readSexpr cLit text = some (.opens :: ops.flatMap (plistRow headers) ++ [.closes]))

/-- A quote `'` is escaped as in C; JSON has no such escape. -/
theorem C39_json_counterexample : ¬ C39_statement := by
  intro h
  obtain ⟨⟨text, h1, h2⟩, _⟩ := h [c!"package"] [.row [c!"it's"]]
    ⟨by decide, by unfold Bytes; decide, by simp [Fits], by simp only [List.mem_singleton, forall_eq, cellsOf]; unfold Bytes; decide⟩
    (by unfold Symbol; decide)
  have e : output .json [c!"package"] [.row [c!"it's"]] = some c!"{\"package\": \"it\\'s\"}\n" := by decide +kernel
  rw [e] at h1
  cases h1
  revert h2
  decide +kernel

/-- A `"` is written `\"`; in CSV, that ends the field. -/
theorem C39_csv_counterexample : ¬ C39_statement := by
  intro h
  obtain ⟨_, ⟨text, h1, h2⟩, _⟩ := h [c!"package"] [.row [c!"a\"b"]]
    ⟨by decide, by unfold Bytes; decide, by simp [Fits], by simp only [List.mem_singleton, forall_eq, cellsOf]; unfold Bytes; decide⟩
    (by unfold Symbol; decide)
  have e : output .csv [c!"package"] [.row [c!"a\"b"]] = some c!"\"package\"\n\"a\\\"b\"\n" := by decide +kernel
  rw [e] at h1
  cases h1
  revert h2
  decide +kernel

/-- Bytes of UTF-8 are written in octal: `ä` can not be read as JSON either. A backslash is doubled,
also in CSV: another text is read. -/
example : output .json [c!"h"] [.row [[Char.ofNat 0xc3, Char.ofNat 0xa4]]] = some c!"{\"h\": \"\\303\\244\"}\n" ∧
    readJson jsonLit c!"{\"h\": \"\\303\\244\"}\n" = none ∧
    output .csv [c!"h"] [.row [c!"a\\b"]] = some c!"\"h\"\n\"a\\\\b\"\n" ∧
    readCsv csvLit c!"\"h\"\n\"a\\\\b\"\n" = some [[c!"h"], [c!"a\\\\b"]] := by decide +kernel

/-- **C39**, JSON: for texts of printable ASCII, newlines and tabs, but for `'`. -/
theorem C39_json_partial {headers : List Str} {ops : List Op} (hf : ∀ op ∈ ops, Fits headers op)
    (hh : ∀ h ∈ headers, JsonPlain h) (hc : ∀ op ∈ ops, ∀ x ∈ cellsOf op, JsonPlain x) :
    C39_json_with jsonLit headers ops :=
  json_reads (fun h hm => jsonLit_reads (hh h hm)) ops hf (fun op ho x hx => jsonLit_reads (hc op ho x hx))

/-- **C39**, CSV: for texts without anything to escape. -/
theorem C39_csv_partial {headers : List Str} {ops : List Op} (hne : headers ≠ []) (hf : ∀ op ∈ ops, Fits headers op)
    (hh : ∀ h ∈ headers, CsvPlain h) (hc : ∀ op ∈ ops, ∀ x ∈ cellsOf op, CsvPlain x) :
    C39_csv_with csvLit headers ops :=
  ⟨_, rfl, csv_reads hne (fun h hm => csvLit_reads (hh h hm)) ops hf (fun op ho x hx => csvLit_reads (hc op ho x hx))⟩

theorem zip_flatMap_values (headers : List Str) (l : List JValue) (h : l.length = headers.length) :
    (headers.zip l).flatMap (fun m => valueToks m.2) = l.flatMap valueToks := by
  induction headers generalizing l with
  | nil => cases l with
    | nil => rfl
    | cons v l => simp at h
  | cons x headers ih =>
    cases l with
    | nil => rfl
    | cons v l => simp [ih l (by simpa using h)]

theorem valuesOf_length {headers : List Str} {op : Op} (h : Fits headers op) :
    (valuesOf op).length = headers.length := by
  cases op <;> simpa [Fits, valuesOf] using h

/-- **C39**, S-expressions: for all bytes. -/
theorem C39_sexpr {headers : List Str} {ops : List Op} (h : C39_table headers ops) :
    ∃ text, output .sexpr headers ops = some text ∧
      readSexpr cLit text = some (.opens :: ops.flatMap sexprRow ++ [.closes]) := by
  obtain ⟨text, h1, h2⟩ := sexpr_reads (plist := false) (by simp) ops h.fits
    (fun op ho x hx => cLit_reads (h.cells_bytes op ho x hx))
  refine ⟨text, h1, ?_⟩
  have e : ops.flatMap (opToks false headers) = ops.flatMap sexprRow := by
    rw [List.flatMap_def, List.flatMap_def]
    congr 1
    apply List.map_congr_left
    intro op ho
    have := zip_flatMap_values headers (valuesOf op) (valuesOf_length (h.fits op ho))
    have e : columnToks false = fun m => valueToks m.2 := by
      funext m
      simp [columnToks]
    rw [opToks, sexprRow, ← this, e]
  rw [h2, e]

/-- **C39**, property lists: for all bytes, names of columns being symbols. -/
theorem C39_plist {headers : List Str} {ops : List Op} (h : C39_table headers ops) (hh : ∀ h ∈ headers, Symbol h) :
    ∃ text, output .plist headers ops = some text ∧
      readSexpr cLit text = some (.opens :: ops.flatMap (plistRow headers) ++ [.closes]) :=
  sexpr_reads (plist := true) (fun _ => hh) ops h.fits (fun op ho x hx => cLit_reads (h.cells_bytes op ho x hx))

/-- **C39**, JSON and CSV for all bytes: a reader that knows the escapes of C gets back what was put in. -/
theorem C39_c_reader {headers : List Str} {ops : List Op} (h : C39_table headers ops) :
    C39_json_with cLit headers ops ∧ C39_csv_with cLit headers ops :=
  ⟨json_reads (fun x hx => cLit_reads (h.headers_bytes x hx)) ops h.fits
      (fun op ho x hx => cLit_reads (h.cells_bytes op ho x hx)),
    _, rfl, csv_reads h.some_column (fun x hx => cLit_reads (h.headers_bytes x hx)) ops h.fits
      (fun op ho x hx => cLit_reads (h.cells_bytes op ho x hx))⟩

theorem text_append_injective : ∀ {a b : List Str} {u v : List JValue},
    a.map JValue.text ++ u = b.map JValue.text ++ v → (∀ s, u.head? ≠ some (.text s)) → (∀ s, v.head? ≠ some (.text s)) →
    a = b ∧ u = v
  | [], [], _, _, h, _, _ => ⟨rfl, h⟩
  | [], s :: b, u, v, h, hu, _ => absurd (by simp at h; simp [h]) (hu s)
  | s :: a, [], u, v, h, _, hv => absurd (by simp at h; simp [← h]) (hv s)
  | s :: a, t :: b, u, v, h, hu, hv => by
    simp only [List.map_cons, List.cons_append, List.cons.injEq, JValue.text.injEq] at h
    obtain ⟨rfl, h⟩ := h
    obtain ⟨rfl, e⟩ := text_append_injective h hu hv
    exact ⟨rfl, e⟩

theorem valuesOf_injective {a b : Op} (h : valuesOf a = valuesOf b) : a = b := by
  cases a with
  | row cells =>
    cases b with
    | row cells' =>
      have := text_append_injective (u := []) (v := []) (by simpa [valuesOf] using h) (by simp) (by simp)
      rw [this.1]
    | «repeated» pre values =>
      have := text_append_injective (a := cells) (u := []) (by simpa [valuesOf] using h) (by simp) (by simp)
      cases this.2
  | «repeated» pre values =>
    cases b with
    | row cells' =>
      have := text_append_injective (b := cells') (v := []) (by simpa [valuesOf] using h) (by simp) (by simp)
      cases this.2
    | «repeated» pre' values' =>
      obtain ⟨rfl, e⟩ := text_append_injective (by simpa only [valuesOf] using h) (by simp) (by simp)
      cases e
      rfl

theorem texts_append_injective : ∀ {a b : List Str} {u v : List STok},
    a.map STok.text ++ .closes :: u = b.map STok.text ++ .closes :: v → a = b ∧ u = v
  | [], [], _, _, h => ⟨rfl, by simpa using h⟩
  | [], s :: b, u, v, h => by simp at h
  | s :: a, [], u, v, h => by simp at h
  | s :: a, t :: b, u, v, h => by
    simp only [List.map_cons, List.cons_append, List.cons.injEq, STok.text.injEq] at h
    obtain ⟨rfl, h⟩ := h
    obtain ⟨rfl, e⟩ := texts_append_injective h
    exact ⟨rfl, e⟩

theorem valueToks_injective {a b : JValue} {u v : List STok} (h : valueToks a ++ u = valueToks b ++ v) :
    a = b ∧ u = v := by
  cases a <;> cases b <;> simp [valueToks] at h
  · simp [h]
  · obtain ⟨rfl, rfl⟩ := texts_append_injective (by simpa using h)
    exact ⟨rfl, rfl⟩

theorem valueToks_head (a : JValue) (u : List STok) : (valueToks a ++ u).head? ≠ some .closes := by
  cases a <;> simp [valueToks]

theorem values_injective : ∀ {a b : List JValue} {u v : List STok},
    a.flatMap valueToks ++ .closes :: u = b.flatMap valueToks ++ .closes :: v → a = b ∧ u = v
  | [], [], _, _, h => ⟨rfl, by simpa using h⟩
  | [], s :: b, u, v, h => by
    rw [List.flatMap_cons, List.append_assoc] at h
    exact absurd (by rw [← h]; rfl) (valueToks_head s (b.flatMap valueToks ++ .closes :: v))
  | s :: a, [], u, v, h => by
    rw [List.flatMap_cons, List.append_assoc] at h
    exact absurd (by rw [h]; rfl) (valueToks_head s (a.flatMap valueToks ++ .closes :: u))
  | s :: a, t :: b, u, v, h => by
    rw [List.flatMap_cons, List.append_assoc, List.flatMap_cons, List.append_assoc] at h
    obtain ⟨rfl, h'⟩ := valueToks_injective h
    obtain ⟨rfl, e⟩ := values_injective h'
    exact ⟨rfl, e⟩

theorem sexprRows_injective : ∀ {a b : List Op},
    a.flatMap sexprRow ++ [STok.closes] = b.flatMap sexprRow ++ [STok.closes] → a = b
  | [], [], _ => rfl
  | [], s :: b, h => by simp [sexprRow] at h
  | s :: a, [], h => by simp [sexprRow] at h
  | s :: a, t :: b, h => by
    simp only [List.flatMap_cons, sexprRow, List.cons_append, List.append_assoc, List.cons.injEq, true_and,
      List.nil_append] at h
    obtain ⟨e, h⟩ := values_injective h
    rw [valuesOf_injective e, sexprRows_injective h]

theorem zip_values_injective {headers : List Str} {a b : List Op} (ha : ∀ op ∈ a, Fits headers op)
    (hb : ∀ op ∈ b, Fits headers op)
    (h : (a.map fun op => headers.zip (valuesOf op)) = b.map fun op => headers.zip (valuesOf op)) : a = b := by
  induction a generalizing b with
  | nil => cases b with
    | nil => rfl
    | cons y b => simp at h
  | cons x a ih =>
    cases b with
    | nil => simp at h
    | cons y b =>
      simp only [List.map_cons, List.cons.injEq] at h
      have e1 := congrArg (List.map Prod.snd) h.1
      rw [List.map_snd_zip (by rw [valuesOf_length (ha x (by simp))]; exact Nat.le_refl _),
        List.map_snd_zip (by rw [valuesOf_length (hb y (by simp))]; exact Nat.le_refl _)] at e1
      rw [valuesOf_injective e1, ih (fun o ho => ha o (by simp [ho])) (fun o ho => hb o (by simp [ho])) h.2]

/-- **C39**: different tables give different outputs, for all bytes: in JSON and as S-expressions, what was
put in is the same if the output is; in CSV, the rows are. -/
theorem C39_injective {headers : List Str} {ops ops' : List Op} (h : C39_table headers ops)
    (h' : C39_table headers ops') :
    (output .json headers ops = output .json headers ops' → ops = ops') ∧
    (output .sexpr headers ops = output .sexpr headers ops' → ops = ops') ∧
    (output .csv headers ops = output .csv headers ops' → ops.flatMap rowsOf = ops'.flatMap rowsOf) := by
  obtain ⟨⟨t1, a1, a2⟩, ⟨t2, a3, a4⟩⟩ := C39_c_reader h
  obtain ⟨⟨u1, b1, b2⟩, ⟨u2, b3, b4⟩⟩ := C39_c_reader h'
  obtain ⟨t3, a5, a6⟩ := C39_sexpr h
  obtain ⟨u3, b5, b6⟩ := C39_sexpr h'
  refine ⟨?_, ?_, ?_⟩
  · intro e
    rw [a1, b1] at e
    cases e
    rw [a2] at b2
    exact zip_values_injective h.fits h'.fits (Option.some.inj b2)
  · intro e
    rw [a5, b5] at e
    cases e
    rw [a6] at b6
    simp only [List.cons_append, Option.some.injEq, List.cons.injEq, true_and] at b6
    exact sexprRows_injective b6
  · intro e
    rw [a3, b3] at e
    cases e
    rw [a4] at b4
    simpa using b4

/-- Non-vacuity: two rows, one with a list of values; in all formats. -/
example :
    let headers := [c!"lib", c!"files"]
    let ops := [Op.row [c!"//a:b", c!"x\ty"], .repeated [c!"//\"c"] [c!"d", c!"e"], .repeated [c!"f"] []]
    output .json headers ops =
      some c!"{\"lib\": \"//a:b\", \"files\": \"x\\ty\"}\n{\"lib\": \"//\\\"c\", \"files\": [\"d\", \"e\"]}\n{\"lib\": \"f\", \"files\": []}\n" ∧
    (output .json headers ops).bind (readJson jsonLit) = some
      [[(c!"lib", .text c!"//a:b"), (c!"files", .text c!"x\ty")],
       [(c!"lib", .text c!"//\"c"), (c!"files", .texts [c!"d", c!"e"])],
       [(c!"lib", .text c!"f"), (c!"files", .texts [])]] ∧
    output .csv headers ops =
      some c!"\"lib\",\"files\"\n\"//a:b\",\"x\\ty\"\n\"//\\\"c\",\"d\"\n\"//\\\"c\",\"e\"\n" ∧
    (output .csv headers ops).bind (readCsv cLit) = some
      [[c!"lib", c!"files"], [c!"//a:b", c!"x\ty"], [c!"//\"c", c!"d"], [c!"//\"c", c!"e"]] ∧
    output .sexpr headers [.row [c!"a", c!"b"], .row [c!"c", c!"d"]] = some c!"((\"a\" \"b\")\n (\"c\" \"d\"))\n" ∧
    (output .plist headers [.row [c!"a", c!"b"]]).bind (readSexpr cLit) = some
      [.opens, .opens, .symbol c!":lib", .text c!"a", .symbol c!":files", .text c!"b", .closes, .closes] := by
  decide +kernel

/-! ## C40: columns line up -/

/-- **C40**: there is one list of positions for all rows, such that in the line of each row the cells
start there, whole, and are apart; there is nothing else but blanks. Each row is one line, in order. The
columns are no wider than they have to be: the first one starts at the left, and before each of the
others is one blank after the longest cell of the column before. -/
theorem C40_columns {headers : List Str} (hne : headers ≠ []) {ops : List Op} (hf : ∀ op ∈ ops, Fits headers op) :
    ∃ (starts : List Nat) (line : List Str → Str),
      output .native headers ops = some ((ops.flatMap rowsOf).flatMap fun r => line r ++ ['\n']) ∧
      (∀ r ∈ ops.flatMap rowsOf, ColumnsAt starts r (line r)) ∧ starts.head? = some 0 ∧
      ∀ (k s s' : Nat), starts[k]? = some s → starts[k + 1]? = some s' →
        s' = s + 1 ∨ ∃ r ∈ ops.flatMap rowsOf, ∃ x, r[k]? = some x ∧ s' = s + x.length + 1 := by
  obtain ⟨t, h1, h2, h3⟩ := addOps_holds hne ops hf (t := { widths := List.replicate headers.length 0 })
    ⟨by simp, by simp, by
      intro k w h
      rw [List.getElem?_replicate] at h
      split at h
      · exact .inl (Option.some.inj h).symm
      · cases h⟩
  simp only [List.nil_append] at h3
  refine ⟨columnStarts 0 t.widths, padded t.widths, ?_, ?_, ?_, ?_⟩
  · rw [output, aligned, h1, Option.map_some, Aligned.finish, h3]
    rfl
  · intro r hr
    exact padded_columns (h2.2.1 r (by rw [h3]; exact hr))
  · have := h2.1
    cases hw : t.widths with
    | nil =>
      rw [hw] at this
      exact absurd (List.length_eq_zero_iff.1 this.symm) hne
    | cons w ws => rfl
  · intro k s s' hs hs'
    obtain ⟨w, a1, a2⟩ := columnStarts_next hs hs'
    rcases h2.2.2 k w a1 with rfl | ⟨r, b1, x, b2, rfl⟩
    · exact .inl a2
    · exact .inr ⟨r, by rw [← h3]; exact b1, x, b2, a2⟩

/-- Non-vacuity: three columns. -/
example :
    output .native [c!"a", c!"b", c!"c"]
      [.row [c!"x", c!"long text", c!"y"], .repeated [c!"wide", c!""] [c!"p", c!"qq"]] =
    some c!"x    long text y\nwide           p\nwide           qq\n" := by decide +kernel

/-- A row that does not fit is a failed `CHECK`. -/
example : output .native [c!"a", c!"b"] [.row [c!"x"]] = none := by decide +kernel

end Props
end Bant
