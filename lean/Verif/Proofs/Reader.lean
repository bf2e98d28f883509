/-
The reader of `Verif/Reader.lean` reports the tokens of every JSON text.
-/
import Verif.Reader
import Verif.Proofs.Session

namespace SJ.Read

variable {dbl : List UInt8 → Option Dbl}

/-- The reader reads the bytes without an error. -/
inductive Runs (dbl : List UInt8 → Option Dbl) : Reader → List UInt8 → List Token → Reader → Prop
  | nil {r} : Runs dbl r [] [] r
  | cons {r r1 r' b us bs ts} : r.step dbl b = (r1, us, true) → Runs dbl r1 bs ts r' → Runs dbl r (b :: bs) (us ++ ts) r'

theorem Runs.scan {r r' : Reader} {bs ts} (h : Runs dbl r bs ts r') : (reader dbl).scan r bs = (r', ts, true) := by
  induction h with
  | nil => rfl
  | @cons _ _ _ _ _ bs _ hs _ ih =>
    have := scan_good (Y := reader dbl) bs hs
    exact this.trans (by rw [ih]; rfl)

theorem Runs.of_scan : ∀ {bs : List UInt8} {r r' : Reader} {ts}, (reader dbl).scan r bs = (r', ts, true) → Runs dbl r bs ts r'
  | [], r, r', ts, h => by
    simp only [Yajl.scan] at h
    cases h
    exact .nil
  | b :: bs, r, r', ts, h => by
    obtain ⟨r1, us, g, hs⟩ : ∃ r1 us g, r.step dbl b = (r1, us, g) := ⟨_, _, _, rfl⟩
    cases g with
    | false => rw [scan_bad (Y := reader dbl) _ hs] at h; cases h
    | true =>
      rw [scan_good (Y := reader dbl) _ hs] at h
      obtain ⟨r2, ts2, g2, hs2⟩ : ∃ r2 ts2 g2, (reader dbl).scan r1 bs = (r2, ts2, g2) := ⟨_, _, _, rfl⟩
      rw [hs2] at h
      cases h
      exact .cons hs (Runs.of_scan hs2)

theorem Runs.append {r r1 r2 : Reader} {bs cs ts us} (h : Runs dbl r bs ts r1) (h' : Runs dbl r1 cs us r2) : Runs dbl r (bs ++ cs) (ts ++ us) r2 := by
  induction h with
  | nil => exact h'
  | cons hs _ ih => rw [List.cons_append, List.append_assoc]; exact .cons hs (ih h')

theorem Runs.one {r r1 : Reader} {b us} (h : r.step dbl b = (r1, us, true)) : Runs dbl r [b] us r1 := by
  have := Runs.cons h (.nil)
  rwa [List.append_nil] at this

theorem Runs.quiet {r r1 r' : Reader} {b bs ts} (h : r.step dbl b = (r1, [], true)) (h' : Runs dbl r1 bs ts r') : Runs dbl r (b :: bs) ts r' := .cons h h'

theorem Runs.split {xs ys : List UInt8} : ∀ {r r2 : Reader} {ts}, Runs dbl r (xs ++ ys) ts r2 →
    ∃ r1 ts1 ts2, Runs dbl r xs ts1 r1 ∧ Runs dbl r1 ys ts2 r2 ∧ ts = ts1 ++ ts2 := by
  induction xs with
  | nil => intro r r2 ts h; exact ⟨r, [], ts, .nil, h, rfl⟩
  | cons x xs ih =>
    intro r r2 ts h
    cases h with
    | cons hs h =>
      obtain ⟨r1, ts1, ts2, h1, h2, rfl⟩ := ih h
      exact ⟨r1, _, ts2, .cons hs h1, h2, by rw [List.append_assoc]⟩

theorem Runs.one_inv {r r1 : Reader} {b us} (h : Runs dbl r [b] us r1) : r.step dbl b = (r1, us, true) := by
  cases h with
  | cons hs h => cases h; rw [List.append_nil]; exact hs

/-! ## Between tokens -/

theorem step_none {r : Reader} (h : r.lex = .none) (b : UInt8) : r.step dbl b = r.between b := by
  obtain ⟨l, w, i⟩ := r
  cases h; rfl

theorem Runs.blank {bs : List UInt8} : Blank bs → ∀ {r : Reader}, r.lex = .none → Runs dbl r bs [] r := by
  induction bs with
  | nil => intro _ r _; exact .nil
  | cons b bs ih =>
    intro hb r hr
    refine .quiet (r1 := r) ?_ (ih (fun x hx => hb x (List.mem_cons_of_mem _ hx)) hr)
    rw [step_none hr, Reader.between, if_pos (hb b (List.mem_cons_self ..))]

/-- A byte that can follow a value. -/
def Delim (b : UInt8) : Prop := b = 32 ∨ b = 9 ∨ b = 10 ∨ b = 13 ∨ b = 44 ∨ b = 93 ∨ b = 125

theorem Delim.blank {b : UInt8} (h : isBlank b = true) : Delim b := by
  simp only [isBlank, Bool.or_eq_true, decide_eq_true_eq] at h
  obtain ((h | h) | h) | h := h <;> simp [Delim, h]

theorem Delim.next {b : UInt8} (h : Delim b) (at_ : NumAt) : at_.next b = none := by
  obtain h | h | h | h | h | h | h := h <;> subst h <;> cases at_ <;> decide

/-- The rest of the text begins with such a byte. -/
def Delimited (tl : List UInt8) : Prop := ∃ b rest, tl = b :: rest ∧ Delim b

theorem Delimited.blank {bs tl : List UInt8} (hb : Blank bs) (h : Delimited tl) : Delimited (bs ++ tl) := by
  cases bs with
  | nil => exact h
  | cons b bs => exact ⟨b, bs ++ tl, rfl, .blank (hb b (List.mem_cons_self ..))⟩

/-! ## Strings -/

theorem hex4_some {a b c d : UInt8} {n} (h : hex4 a b c d = some n) :
    (hexDigit a).isSome = true ∧ (hexDigit b).isSome = true ∧ (hexDigit c).isSome = true ∧ (hexDigit d).isSome = true := by
  unfold hex4 at h
  split at h
  · simp_all
  · cases h

def inStr (r : Reader) (out esc : List UInt8) : Reader := { r with lex := .str out esc }

theorem step_esc {r : Reader} {out esc : List UInt8} {b : UInt8} (he : esc ≠ []) : (inStr r out esc).step dbl b =
    match escape (esc ++ [b]) with
    | .done x => (inStr r (out ++ x) [], [], true)
    | .more => (inStr r out (esc ++ [b]), [], true)
    | .bad => (inStr r out esc, [], false) := by
  cases esc with
  | nil => exact absurd rfl he
  | cons e esc => rfl

theorem step_more {r : Reader} {out esc : List UInt8} {b : UInt8} (he : esc ≠ []) (h : escape (esc ++ [b]) = .more) :
    (inStr r out esc).step dbl b = (inStr r out (esc ++ [b]), [], true) := by rw [step_esc he, h]

theorem step_done {r : Reader} {out esc x : List UInt8} {b : UInt8} (he : esc ≠ []) (h : escape (esc ++ [b]) = .done x) :
    (inStr r out esc).step dbl b = (inStr r (out ++ x) [], [], true) := by rw [step_esc he, h]

theorem step_backslash {r : Reader} {out : List UInt8} : (inStr r out []).step dbl 92 = (inStr r out [92], [], true) := rfl

theorem simple_not_u {c x : UInt8} (h : simpleEscape c = some x) : c ≠ 117 := by
  intro hc; subst hc; cases h

theorem Runs.str {raw x : List UInt8} (h : StrText raw x) : ∀ {r : Reader} {out : List UInt8}, Runs dbl (inStr r out []) raw [] (inStr r (out ++ x) []) := by
  induction h with
  | nil => intro r out; rw [List.append_nil]; exact .nil
  | @plain b raw x h1 h2 h3 _ ih =>
    intro r out
    have := ih (r := r) (out := out ++ [b])
    rw [List.append_assoc] at this
    refine .quiet ?_ this
    simp only [Reader.step, inStr, if_neg h2, if_neg h3, if_neg (show ¬ b < 32 from UInt8.not_lt.mpr h1)]
  | @escape c y raw x h1 _ ih =>
    intro r out
    have := ih (r := r) (out := out ++ [y])
    rw [List.append_assoc] at this
    refine .quiet step_backslash (.quiet (step_done (by simp) ?_) this)
    simp only [List.cons_append, List.nil_append, Read.escape, if_neg (simple_not_u h1), h1]
  | @unicode a b c d n raw x hn hh hl _ ih =>
    intro r out
    have := ih (r := r) (out := out ++ utf8 n)
    rw [List.append_assoc] at this
    obtain ⟨ha, hb, hc, hd⟩ := hex4_some hn
    refine .quiet step_backslash (.quiet (step_more (by simp) ?_) (.quiet (step_more (by simp) ?_) (.quiet (step_more (by simp) ?_)
      (.quiet (step_more (by simp) ?_) (.quiet (step_done (by simp) ?_) this)))))
    · simp [Read.escape]
    · simp [Read.escape, ha]
    · simp [Read.escape, hb]
    · simp [Read.escape, hc]
    · simp [Read.escape, hn, hh, hl]
  | @pair a b c d n a' b' c' d' m raw x hn hh hm hl _ ih =>
    intro r out
    have := ih (r := r) (out := out ++ utf8 (0x10000 + 1024 * (n - 0xD800) + (m - 0xDC00)))
    rw [List.append_assoc] at this
    obtain ⟨ha, hb, hc, hd⟩ := hex4_some hn
    obtain ⟨ha', hb', hc', hd'⟩ := hex4_some hm
    refine .quiet step_backslash (.quiet (step_more (by simp) ?_) (.quiet (step_more (by simp) ?_) (.quiet (step_more (by simp) ?_)
      (.quiet (step_more (by simp) ?_) (.quiet (step_more (by simp) ?_) (.quiet (step_more (by simp) ?_) (.quiet (step_more (by simp) ?_)
      (.quiet (step_more (by simp) ?_) (.quiet (step_more (by simp) ?_) (.quiet (step_more (by simp) ?_) (.quiet (step_done (by simp) ?_) this)))))))))))
    · simp [Read.escape]
    · simp [Read.escape, ha]
    · simp [Read.escape, hb]
    · simp [Read.escape, hc]
    · simp [Read.escape, hn, hh]
    · simp [Read.escape]
    · simp [Read.escape]
    · simp [Read.escape, ha']
    · simp [Read.escape, hb']
    · simp [Read.escape, hc']
    · simp [Read.escape, hn, hm, hh, hl]

theorem fromUTF8?_toUTF8 (s : String) : String.fromUTF8? ⟨s.toUTF8.data.toList.toArray⟩ = some s := by
  have h : (⟨s.toUTF8.data.toList.toArray⟩ : ByteArray) = s.toUTF8 := by simp
  rw [h, String.fromUTF8?]
  exact dif_pos s.isValidUTF8

/-- A string that is a key. -/
theorem Runs.key {r : Reader} {k : String} {bs : List UInt8} (h : Quoted k bs) (hl : r.lex = .none) (hw : r.want = .key ∨ r.want = .keyOrEnd) :
    Runs dbl r bs [.mapKey k] { r with want := .colon } := by
  obtain ⟨raw, rfl, hx⟩ := h
  refine .quiet (r1 := inStr r [] []) ?_ ?_
  · rw [step_none hl, Reader.between, if_neg (by decide)]
    obtain hw | hw := hw <;> simp [hw, inStr]
  · refine Runs.append (ts := []) (Runs.str hx) (.one ?_)
    rw [List.nil_append]
    simp only [Reader.step, inStr, if_pos, fromUTF8?_toUTF8]
    rw [hl]
    exact if_pos hw

/-- What a value begins with. -/
theorem between_value {r : Reader} (hw : r.want = .value ∨ r.want = .valueOrEnd) {b : UInt8} (h1 : isBlank b = false) (h2 : b ≠ 93) : r.between b = r.value b := by
  rw [Reader.between, if_neg (by simp [h1])]
  obtain hw | hw := hw <;> rw [hw]
  simp [h2]

theorem valueRead_lex (r : Reader) : r.valueRead.lex = .none := rfl

theorem Runs.string {r : Reader} {s : String} {bs : List UInt8} (h : Quoted s bs) (hl : r.lex = .none) (hw : r.want = .value ∨ r.want = .valueOrEnd) :
    Runs dbl r bs [.scalar (.str s)] r.valueRead := by
  obtain ⟨raw, rfl, hx⟩ := h
  refine .quiet (r1 := inStr r [] []) ?_ ?_
  · rw [step_none hl, between_value hw (by decide) (by decide)]; rfl
  · refine Runs.append (ts := []) (Runs.str hx) (.one ?_)
    rw [List.nil_append]
    have : ¬ (r.want = .key ∨ r.want = .keyOrEnd) := by
      obtain hw | hw := hw <;> rw [hw] <;> decide
    simp only [Reader.step, inStr, if_pos, fromUTF8?_toUTF8]
    exact if_neg this

/-! ## Words -/

def inWord (r : Reader) (rest : List UInt8) (t : Token) : Reader := { r with lex := .word rest t }

theorem Runs.word {t : Token} : ∀ (w : List UInt8), w ≠ [] → ∀ {r : Reader}, Runs dbl (inWord r w t) w [t] r.valueRead
  | [], h, _ => absurd rfl h
  | [x], _, r => .one (by simp only [Reader.step, inWord, if_pos, Reader.valueRead]; rfl)
  | x :: y :: w, _, r => .quiet (r1 := inWord r (y :: w) t) (by simp only [Reader.step, inWord, if_pos]) (Runs.word (y :: w) (by simp))

/-! ## Numbers -/

def inNum (r : Reader) (at_ : NumAt) (raw : List UInt8) : Reader := { r with lex := .num at_ raw }

/-- Several bytes of a number. -/
inductive Over : NumAt → List UInt8 → NumAt → Prop
  | nil {a} : Over a [] a
  | cons {a a1 a2 b bs} : NumAt.next a b = some a1 → Over a1 bs a2 → Over a (b :: bs) a2

theorem Over.append {a a1 a2 bs cs} (h : Over a bs a1) (h' : Over a1 cs a2) : Over a (bs ++ cs) a2 := by
  induction h with
  | nil => exact h'
  | cons hn _ ih => exact .cons hn (ih h')

theorem step_num {r : Reader} {a a1 : NumAt} {raw : List UInt8} {b : UInt8} (h : a.next b = some a1) :
    (inNum r a raw).step dbl b = (inNum r a1 (raw ++ [b]), [], true) := by
  simp only [Reader.step, inNum, h]

theorem Runs.num {a a1 : NumAt} {bs : List UInt8} (h : Over a bs a1) : ∀ {r : Reader} {raw : List UInt8}, Runs dbl (inNum r a raw) bs [] (inNum r a1 (raw ++ bs)) := by
  induction h with
  | nil => intro r raw; rw [List.append_nil]; exact .nil
  | @cons a a1 a2 b bs hn _ ih =>
    intro r raw
    have := ih (r := r) (raw := raw ++ [b])
    rw [List.append_assoc] at this
    exact .quiet (step_num hn) this

theorem digits_over {a : NumAt} (ha : ∀ d, isDigit d = true → a.next d = some a) {ds : List UInt8} (h : ∀ d ∈ ds, isDigit d = true) : Over a ds a := by
  induction ds with
  | nil => exact .nil
  | cons d ds ih => exact .cons (ha d (h d (List.mem_cons_self ..))) (ih fun x hx => h x (List.mem_cons_of_mem _ hx))

theorem next_digits {d : UInt8} (h : isDigit d = true) : NumAt.next .digits d = some .digits := by simp [NumAt.next, h]
theorem next_frac {d : UInt8} (h : isDigit d = true) : NumAt.next .frac d = some .frac := by simp [NumAt.next, h]
theorem next_expDigits {d : UInt8} (h : isDigit d = true) : NumAt.next .expDigits d = some .expDigits := by simp [NumAt.next, h]

/-- The integer part. -/
theorem int_over {ds : List UInt8} (h : IntDigits ds) : ∃ a, Over .minus ds a ∧ (a = .zero ∨ a = .digits) := by
  obtain ⟨⟨h0, hd⟩, h1⟩ := h
  cases ds with
  | nil => exact absurd rfl h0
  | cons d ds =>
    obtain h1 | h1 := h1
    · cases h1
      exact ⟨.zero, .cons (by decide) .nil, .inl rfl⟩
    · have hne : d ≠ 48 := by simpa using h1
      refine ⟨.digits, .cons ?_ (digits_over (fun _ => next_digits) fun x hx => hd x (List.mem_cons_of_mem _ hx)), .inr rfl⟩
      simp [NumAt.next, hne, hd d (List.mem_cons_self ..)]

theorem fraction_over {f : List UInt8} (h : Fraction f) {a : NumAt} (ha : a = .zero ∨ a = .digits) :
    ∃ a1, Over a f a1 ∧ (f = [] ∧ a1 = a ∨ f ≠ [] ∧ a1 = .frac) := by
  obtain rfl | ⟨ds, rfl, hne, hd⟩ := h
  · exact ⟨a, .nil, .inl ⟨rfl, rfl⟩⟩
  · cases ds with
    | nil => exact absurd rfl hne
    | cons d ds =>
      have hd0 := hd d (List.mem_cons_self ..)
      refine ⟨.frac, .cons (a1 := .point) ?_ (.cons (a1 := .frac) (by simp [NumAt.next, hd0])
        (digits_over (fun _ => next_frac) fun x hx => hd x (List.mem_cons_of_mem _ hx))), .inr ⟨by simp, rfl⟩⟩
      obtain ha | ha := ha <;> subst ha <;> decide

theorem exponent_over {x : List UInt8} (h : Exponent x) {a : NumAt} (ha : a = .zero ∨ a = .digits ∨ a = .frac) :
    ∃ a1, Over a x a1 ∧ (x = [] ∧ a1 = a ∨ x ≠ [] ∧ a1 = .expDigits) := by
  obtain rfl | ⟨e, s, ds, rfl, he, hs, hne, hd⟩ := h
  · exact ⟨a, .nil, .inl ⟨rfl, rfl⟩⟩
  · have h1 : a.next e = some .exp := by
      obtain ha | ha | ha := ha <;> obtain he | he := he <;> subst ha <;> subst he <;> decide
    cases ds with
    | nil => exact absurd rfl hne
    | cons d ds =>
      have hd0 := hd d (List.mem_cons_self ..)
      have h3 : Over .expDigits ds .expDigits := digits_over (fun _ => next_expDigits) fun x hx => hd x (List.mem_cons_of_mem _ hx)
      refine ⟨.expDigits, .cons h1 ?_, .inr ⟨by simp, rfl⟩⟩
      obtain rfl | hs := hs
      · exact .cons (a1 := .expDigits) (by simp [NumAt.next, hd0]) h3
      · have h2 : ∃ c, s = [c] ∧ NumAt.next .exp c = some .expSign := by
          obtain rfl | rfl := hs
          · exact ⟨43, rfl, by decide⟩
          · exact ⟨45, rfl, by decide⟩
        obtain ⟨c, rfl, h2⟩ := h2
        exact .cons h2 (.cons (a1 := .expDigits) (by simp [NumAt.next, hd0]) h3)

/-- The first bytes of a number. -/
theorem Runs.begin {r : Reader} {s ds : List UInt8} (hs : Sign s) (hd : IntDigits ds) (hl : r.lex = .none) (hw : r.want = .value ∨ r.want = .valueOrEnd) :
    ∃ a, Runs dbl r (s ++ ds) [] (inNum r a (s ++ ds)) ∧ (a = .zero ∨ a = .digits) := by
  obtain ⟨a, ho, ha⟩ := int_over hd
  refine ⟨a, ?_, ha⟩
  obtain rfl | rfl := hs
  · cases ho with
    | nil => cases ha <;> contradiction
    | @cons _ a1 _ d ds hn ho =>
      refine .quiet (r1 := inNum r a1 [d]) ?_ (Runs.num ho)
      have hdig : isDigit d = true := hd.1.2 d (List.mem_cons_self ..)
      have hrange : 48 ≤ d ∧ d ≤ 57 := by simpa [isDigit] using hdig
      have hne : ∀ c : UInt8, (c < 48 ∨ 57 < c) → d ≠ c := by
        intro c hc hdc; subst hdc
        obtain hc | hc := hc
        · exact absurd hrange.1 (UInt8.not_le.mpr hc)
        · exact absurd hrange.2 (UInt8.not_le.mpr hc)
      have hblank : isBlank d = false := by
        simp [isBlank, hne 32 (by decide), hne 9 (by decide), hne 10 (by decide), hne 13 (by decide)]
      rw [step_none hl, between_value hw hblank (hne 93 (by decide))]
      simp only [NumAt.next] at hn
      simp only [Reader.value, if_neg (hne 123 (by decide)), if_neg (hne 91 (by decide)), if_neg (hne 34 (by decide)), if_neg (hne 45 (by decide))]
      split at hn
      · rename_i h; cases hn; simp only [h, if_true]; rfl
      · rename_i h; cases hn; simp only [h, hdig, if_true]; rfl
  · refine .quiet (r1 := inNum r .minus [45]) ?_ (Runs.num ho)
    rw [step_none hl, between_value hw (by decide) (by decide)]; rfl

/-- A number ends where something else begins. -/
theorem Runs.ended {r r2 : Reader} {a : NumAt} {raw tl : List UInt8} {x us} (hd : Delimited tl) (hx : number dbl a raw = some x)
    (h : Runs dbl r.valueRead tl us r2) : Runs dbl (inNum r a raw) tl (.scalar x :: us) r2 := by
  obtain ⟨b, rest, rfl, hb⟩ := hd
  cases h with
  | cons hs h =>
    rw [step_none (valueRead_lex r)] at hs
    refine Runs.cons (us := .scalar x :: _) ?_ h
    simp only [Reader.step, inNum, hb.next, hx]
    rw [show Reader.valueRead { r with lex := .num a raw } = r.valueRead from rfl, hs]

theorem number_int {s ds : List UInt8} {a : NumAt} (ha : a = .zero ∨ a = .digits) (hs : Sign s) (hd : IntDigits ds) (hf : fits64 (intOf s ds)) :
    number dbl a (s ++ ds) = some (.int (intOf s ds)) := by
  have key : literal (s ++ ds) = intOf s ds := by
    obtain rfl | rfl := hs
    · cases ds with
      | nil => exact absurd rfl hd.1.1
      | cons d ds =>
        have hdig : isDigit d = true := hd.1.2 d (List.mem_cons_self ..)
        rw [List.nil_append, literal, if_neg]
        intro h; subst h; simp [isDigit] at hdig
    · rfl
  obtain ha | ha := ha <;> subst ha <;> simp only [number] <;> rw [key] <;> exact if_pos hf

theorem number_dbl {a : NumAt} {raw : List UInt8} {d : Dbl} (ha : a = .frac ∨ a = .expDigits) (hd : dbl raw = some d) : number dbl a raw = some (.dbl d) := by
  obtain ha | ha := ha <;> subst ha <;> simp [number, hd]

/-! ## Values -/

theorem Runs.wordValue {r : Reader} (hl : r.lex = .none) (hw : r.want = .value ∨ r.want = .valueOrEnd) {b : UInt8} {w : List UInt8} {t : Token}
    (h1 : isBlank b = false) (h2 : b ≠ 93) (hv : r.value b = (inWord r w t, [], true)) (hne : w ≠ []) : Runs dbl r (b :: w) [t] r.valueRead := by
  refine .quiet (r1 := inWord r w t) ?_ (Runs.word w hne)
  rw [step_none hl, between_value hw h1 h2, hv]

theorem Runs.scalar {r r2 : Reader} {x : Scalar} {v tl : List UInt8} {us} (h : ScalarText dbl x v) (hl : r.lex = .none)
    (hw : r.want = .value ∨ r.want = .valueOrEnd) (hd : Delimited tl) (ht : Runs dbl r.valueRead tl us r2) : Runs dbl r (v ++ tl) (.scalar x :: us) r2 := by
  cases x with
  | bool b =>
    cases b with
    | true => cases h; exact Runs.append (ts := [_]) (Runs.wordValue hl hw (by decide) (by decide) rfl (by simp)) ht
    | false => cases h; exact Runs.append (ts := [_]) (Runs.wordValue hl hw (by decide) (by decide) rfl (by simp)) ht
  | str s => exact Runs.append (ts := [_]) (Runs.string h hl hw) ht
  | int i =>
    obtain ⟨s, ds, rfl, hs, hds, rfl, hf⟩ := h
    obtain ⟨a, hb, ha⟩ := Runs.begin (dbl := dbl) hs hds hl hw
    exact Runs.append (ts := []) hb (Runs.ended hd (number_int ha hs hds hf) ht)
  | dbl d =>
    obtain ⟨s, ds, f, x, rfl, hs, hds, hf, hx, hne, hval⟩ := h
    obtain ⟨a, hb, ha⟩ := Runs.begin (dbl := dbl) hs hds hl hw
    obtain ⟨a1, ho1, h1⟩ := fraction_over hf ha
    have ha1 : a1 = .zero ∨ a1 = .digits ∨ a1 = .frac := by
      obtain ⟨_, h1⟩ | ⟨_, h1⟩ := h1
      · subst h1; obtain ha | ha := ha <;> simp [ha]
      · simp [h1]
    obtain ⟨a2, ho2, h2⟩ := exponent_over hx ha1
    have hlast : a2 = .frac ∨ a2 = .expDigits := by
      obtain ⟨hx0, h2⟩ | ⟨_, h2⟩ := h2
      · obtain ⟨hf0, h1⟩ | ⟨_, h1⟩ := h1
        · simp [hx0, hf0] at hne
        · exact .inl (h2.trans h1)
      · exact .inr h2
    have h3 := Runs.append hb ((Runs.num (ho1.append ho2)).append (Runs.ended hd (number_dbl hlast (by simpa using hval)) ht))
    simpa using h3

theorem Runs.colon {r : Reader} (hl : r.lex = .none) (hw : r.want = .colon) : Runs dbl r [58] [] { r with want := .value } := by
  refine .one ?_
  rw [step_none hl, Reader.between, if_neg (by decide)]
  simp [hw]

theorem separator_of {r : Reader} {o : Bool} {i : List Bool} (h : r.inside = o :: i) : r.valueRead.want = .separator := by
  simp [Reader.valueRead, h]

theorem Runs.comma {r : Reader} {o : Bool} {i : List Bool} (hl : r.lex = .none) (hw : r.want = .separator) (hi : r.inside = o :: i) :
    Runs dbl r [44] [] { r with want := if o then .key else .value } := by
  refine .one ?_
  rw [step_none hl, Reader.between, if_neg (by decide)]
  cases o <;> simp [hw, hi]

theorem Runs.endArray {r : Reader} {i : List Bool} (hl : r.lex = .none) (hw : r.want = .separator ∨ r.want = .valueOrEnd) (hi : r.inside = false :: i) :
    Runs dbl r [93] [.arrEnd] (Reader.valueRead { r with inside := i }) := by
  refine .one ?_
  rw [step_none hl, Reader.between, if_neg (by decide)]
  obtain hw | hw := hw <;> simp [hw, hi]

theorem Runs.endObject {r : Reader} {i : List Bool} (hl : r.lex = .none) (hw : r.want = .separator ∨ r.want = .keyOrEnd) (hi : r.inside = true :: i) :
    Runs dbl r [125] [.mapEnd] (Reader.valueRead { r with inside := i }) := by
  refine .one ?_
  rw [step_none hl, Reader.between, if_neg (by decide)]
  obtain hw | hw := hw <;> simp [hw, hi]

mutual
theorem Runs.value (j : Json) {r r2 : Reader} {v tl : List UInt8} {us} (h : ValueText dbl j v) (hl : r.lex = .none)
    (hw : r.want = .value ∨ r.want = .valueOrEnd) (hd : Delimited tl) (ht : Runs dbl r.valueRead tl us r2) : Runs dbl r (v ++ tl) (events j ++ us) r2 := by
  cases j with
  | null => simp only [ValueText] at h; subst h; exact Runs.append (ts := [_]) (Runs.wordValue hl hw (by decide) (by decide) rfl (by simp)) ht
  | sc x => simp only [ValueText] at h; exact Runs.scalar h hl hw hd ht
  | arr l =>
    simp only [ValueText] at h
    obtain ⟨body, rfl, h⟩ := h
    have h1 : Runs dbl r [91] [.arrStart] { r with want := .valueOrEnd, inside := false :: r.inside } := by
      refine .one ?_
      rw [step_none hl, Reader.between, if_neg (by decide)]
      obtain hw | hw := hw <;> simp [hw, Reader.value]
    have h2 : Runs dbl { r with want := .valueOrEnd, inside := false :: r.inside } (body ++ [93]) (elemEvents l ++ [.arrEnd]) r.valueRead := by
      obtain ⟨rfl, hb⟩ | h := h
      · exact Runs.append (ts := []) (Runs.blank hb hl) (Runs.endArray hl (.inr rfl) rfl)
      · exact Runs.elems l h hl (.inr rfl) rfl
    have h3 := h1.append (h2.append ht)
    simpa [events] using h3
  | obj fs =>
    simp only [ValueText] at h
    obtain ⟨body, rfl, h⟩ := h
    have h1 : Runs dbl r [123] [.mapStart] { r with want := .keyOrEnd, inside := true :: r.inside } := by
      refine .one ?_
      rw [step_none hl, Reader.between, if_neg (by decide)]
      obtain hw | hw := hw <;> simp [hw, Reader.value]
    have h2 : Runs dbl { r with want := .keyOrEnd, inside := true :: r.inside } (body ++ [125]) (fieldEvents fs ++ [.mapEnd]) r.valueRead := by
      obtain ⟨rfl, hb⟩ | h := h
      · exact Runs.append (ts := []) (Runs.blank hb hl) (Runs.endObject hl (.inr rfl) rfl)
      · exact Runs.fields fs h hl (.inr rfl) rfl
    have h3 := h1.append (h2.append ht)
    simpa [events] using h3
theorem Runs.elems (l : List Json) {r : Reader} {i : List Bool} {body : List UInt8} (h : ElemsText dbl l body) (hl : r.lex = .none)
    (hw : r.want = .value ∨ r.want = .valueOrEnd) (hi : r.inside = false :: i) :
    Runs dbl r (body ++ [93]) (elemEvents l ++ [.arrEnd]) (Reader.valueRead { r with inside := i }) := by
  cases l with
  | nil => simp only [ElemsText] at h
  | cons j l =>
    simp only [ElemsText] at h
    obtain ⟨b, v, b', hb, hv, hb', h⟩ := h
    have hsep := separator_of hi
    have hi' : r.valueRead.inside = false :: i := hi
    obtain ⟨rfl, rfl⟩ | ⟨rest, rfl, h⟩ := h
    · have h1 := Runs.endArray (dbl := dbl) (valueRead_lex r) (.inl hsep) hi'
      have h2 := Runs.append (Runs.blank hb' (valueRead_lex r)) h1
      have h3 := Runs.append (Runs.blank hb hl) (Runs.value j hv hl hw (.blank hb' ⟨93, [], rfl, by simp [Delim]⟩) h2)
      simpa [elemEvents, Reader.valueRead] using h3
    · have h1 := Runs.comma (dbl := dbl) (valueRead_lex r) hsep hi'
      have h2 := Runs.append h1 (Runs.elems (r := { r.valueRead with want := .value }) (i := i) l h rfl (.inl rfl) hi)
      have h3 := Runs.append (Runs.blank hb hl) (Runs.value j hv hl hw (.blank hb' ⟨44, _, rfl, by simp [Delim]⟩)
        (Runs.append (Runs.blank hb' (valueRead_lex r)) h2))
      simpa [elemEvents, Reader.valueRead] using h3
theorem Runs.fields (fs : List (String × Json)) {r : Reader} {i : List Bool} {body : List UInt8} (h : FieldsText dbl fs body) (hl : r.lex = .none)
    (hw : r.want = .key ∨ r.want = .keyOrEnd) (hi : r.inside = true :: i) :
    Runs dbl r (body ++ [125]) (fieldEvents fs ++ [.mapEnd]) (Reader.valueRead { r with inside := i }) := by
  cases fs with
  | nil => simp only [FieldsText] at h
  | cons f fs =>
    obtain ⟨k, j⟩ := f
    simp only [FieldsText] at h
    obtain ⟨b, key, b1, b2, v, b', hb, hk, hb1, hb2, hv, hb', h⟩ := h
    have hpre : Runs dbl r (b ++ (key ++ (b1 ++ ([58] ++ b2)))) [.mapKey k] { r with want := .value } :=
      Runs.append (ts := []) (Runs.blank hb hl) (Runs.append (ts := [_]) (us := []) (Runs.key hk hl hw)
        (Runs.append (ts := []) (Runs.blank hb1 hl) (Runs.append (ts := []) (Runs.colon hl rfl) (Runs.blank hb2 hl))))
    have hi' : (Reader.valueRead { r with want := .value }).inside = true :: i := hi
    have hsep := separator_of hi'
    obtain ⟨rfl, rfl⟩ | ⟨rest, rfl, h⟩ := h
    · have h1 := Runs.endObject (dbl := dbl) (valueRead_lex _) (.inl hsep) hi'
      have h2 := Runs.append (Runs.blank hb' (valueRead_lex _)) h1
      have h3 := Runs.append hpre (Runs.value j hv hl (.inl rfl) (.blank hb' ⟨125, [], rfl, by simp [Delim]⟩) h2)
      simpa [fieldEvents, Reader.valueRead] using h3
    · have h1 := Runs.comma (dbl := dbl) (valueRead_lex _) hsep hi'
      have h2 := Runs.append h1 (Runs.fields (r := { r.valueRead with want := .key }) (i := i) fs h rfl (.inl rfl) hi)
      have h3 := Runs.append hpre (Runs.value j hv hl (.inl rfl) (.blank hb' ⟨44, _, rfl, by simp [Delim]⟩)
        (Runs.append (Runs.blank hb' (valueRead_lex _)) h2))
      simpa [fieldEvents, Reader.valueRead] using h3
end

/-- The reader reports the tokens of every JSON text. -/
theorem reader_reads (dbl : List UInt8 → Option Dbl) : (reader dbl).ReadsJson dbl := by
  intro j bs h
  obtain ⟨b, v, b', rfl, hb, hv, hb'⟩ := h
  have h1 : Runs dbl ({} : Reader) (b ++ (v ++ (b' ++ [32]))) (events j) (Reader.valueRead {}) := by
    have hs : Blank (b' ++ [32]) := by
      intro x hx
      rcases List.mem_append.mp hx with hx | hx
      · exact hb' x hx
      · simp at hx; subst hx; rfl
    have h2 := Runs.value (dbl := dbl) (r := {}) (us := []) j hv rfl (.inl rfl) (.blank hb' ⟨32, [], rfl, by simp [Delim]⟩) (Runs.blank hs rfl)
    rw [List.append_nil] at h2
    exact Runs.append (ts := []) (Runs.blank hb rfl) h2
  rw [← List.append_assoc, ← List.append_assoc] at h1
  obtain ⟨r1, ts1, ts2, h3, h4, he⟩ := h1.split
  refine ⟨r1, Reader.valueRead {}, ts1, ts2, h3.scan, ?_, he⟩
  have h5 := h4.one_inv
  show Reader.complete dbl r1 = _
  rw [Reader.complete, h5]
  rfl

end SJ.Read
