/-
The reader of `Verif/Reader.lean` accepts nothing but JSON texts.
-/
import Verif.Proofs.Reader

namespace SJ.Read

variable {dbl : List UInt8 → Option Dbl}

/-! ## Texts that grow at the end -/

theorem Blank.nil : Blank [] := by intro b hb; cases hb

theorem Blank.append {xs ys : List UInt8} (h : Blank xs) (h' : Blank ys) : Blank (xs ++ ys) := by
  intro b hb
  rcases List.mem_append.mp hb with hb | hb
  · exact h b hb
  · exact h' b hb

theorem Blank.one {b : UInt8} (h : isBlank b = true) : Blank [b] := by
  intro x hx; simp at hx; subst hx; exact h

theorem StrText.append {a x b y : List UInt8} (h : StrText a x) (h' : StrText b y) : StrText (a ++ b) (x ++ y) := by
  induction h with
  | nil => exact h'
  | plain h1 h2 h3 _ ih => exact .plain h1 h2 h3 ih
  | escape h1 _ ih => exact .escape h1 ih
  | unicode h1 h2 h3 _ ih => rw [List.append_assoc]; exact .unicode h1 h2 h3 ih
  | pair h1 h2 h3 h4 _ ih => rw [List.append_assoc]; exact .pair h1 h2 h3 h4 ih

theorem elems_one {j : Json} {b v b' : List UInt8} (hb : Blank b) (hv : ValueText dbl j v) (hb' : Blank b') : ElemsText dbl [j] (b ++ v ++ b') := by
  simp only [ElemsText]; exact ⟨b, v, b', hb, hv, hb', .inl ⟨trivial, rfl⟩⟩

theorem elems_blank : ∀ {l : List Json} {body b : List UInt8}, ElemsText dbl l body → Blank b → ElemsText dbl l (body ++ b)
  | [], _, _, h, _ => by simp only [ElemsText] at h
  | j :: l, body, b, h, hb => by
    simp only [ElemsText] at h ⊢
    obtain ⟨c, v, c', hc, hv, hc', h⟩ := h
    obtain ⟨rfl, rfl⟩ | ⟨rest, rfl, h⟩ := h
    · exact ⟨c, v, c' ++ b, hc, hv, Blank.append hc' hb, .inl ⟨rfl, by simp⟩⟩
    · exact ⟨c, v, c', hc, hv, hc', .inr ⟨rest ++ b, by simp, elems_blank h hb⟩⟩

theorem elems_snoc : ∀ {l m : List Json} {body rest : List UInt8}, ElemsText dbl l body → ElemsText dbl m rest → ElemsText dbl (l ++ m) (body ++ 44 :: rest)
  | [], _, _, _, h, _ => by simp only [ElemsText] at h
  | j :: l, m, body, rest, h, h' => by
    simp only [List.cons_append, ElemsText] at h ⊢
    obtain ⟨c, v, c', hc, hv, hc', h⟩ := h
    obtain ⟨rfl, rfl⟩ | ⟨tl, rfl, h⟩ := h
    · exact ⟨c, v, c', hc, hv, hc', .inr ⟨rest, rfl, h'⟩⟩
    · exact ⟨c, v, c', hc, hv, hc', .inr ⟨tl ++ 44 :: rest, by simp, elems_snoc h h'⟩⟩

theorem fields_one {k : String} {j : Json} {b key b1 b2 v b' : List UInt8} (hb : Blank b) (hk : Quoted k key) (h1 : Blank b1) (h2 : Blank b2) (hv : ValueText dbl j v)
    (hb' : Blank b') : FieldsText dbl [(k, j)] (b ++ key ++ b1 ++ 58 :: (b2 ++ v ++ b')) := by
  simp only [FieldsText]; exact ⟨b, key, b1, b2, v, b', hb, hk, h1, h2, hv, hb', .inl ⟨trivial, rfl⟩⟩

theorem fields_blank : ∀ {l : List (String × Json)} {body b : List UInt8}, FieldsText dbl l body → Blank b → FieldsText dbl l (body ++ b)
  | [], _, _, h, _ => by simp only [FieldsText] at h
  | (k, j) :: l, body, b, h, hb => by
    simp only [FieldsText] at h ⊢
    obtain ⟨c, key, b1, b2, v, c', hc, hk, h1, h2, hv, hc', h⟩ := h
    obtain ⟨rfl, rfl⟩ | ⟨rest, rfl, h⟩ := h
    · exact ⟨c, key, b1, b2, v, c' ++ b, hc, hk, h1, h2, hv, Blank.append hc' hb, .inl ⟨rfl, by simp⟩⟩
    · exact ⟨c, key, b1, b2, v, c', hc, hk, h1, h2, hv, hc', .inr ⟨rest ++ b, by simp, fields_blank h hb⟩⟩

theorem fields_snoc : ∀ {l m : List (String × Json)} {body rest : List UInt8}, FieldsText dbl l body → FieldsText dbl m rest →
    FieldsText dbl (l ++ m) (body ++ 44 :: rest)
  | [], _, _, _, h, _ => by simp only [FieldsText] at h
  | (k, j) :: l, m, body, rest, h, h' => by
    simp only [List.cons_append, FieldsText] at h ⊢
    obtain ⟨c, key, b1, b2, v, c', hc, hk, h1, h2, hv, hc', h⟩ := h
    obtain ⟨rfl, rfl⟩ | ⟨tl, rfl, h⟩ := h
    · exact ⟨c, key, b1, b2, v, c', hc, hk, h1, h2, hv, hc', .inr ⟨rest, rfl, h'⟩⟩
    · exact ⟨c, key, b1, b2, v, c', hc, hk, h1, h2, hv, hc', .inr ⟨tl ++ 44 :: rest, by simp, fields_snoc h h'⟩⟩

theorem elemEvents_append : ∀ (l m : List Json), elemEvents (l ++ m) = elemEvents l ++ elemEvents m
  | [], m => rfl
  | j :: l, m => by simp only [List.cons_append, elemEvents, elemEvents_append l m, List.append_assoc]

theorem fieldEvents_append : ∀ (l m : List (String × Json)), fieldEvents (l ++ m) = fieldEvents l ++ fieldEvents m
  | [], m => rfl
  | (k, j) :: l, m => by simp only [List.cons_append, fieldEvents, fieldEvents_append l m, List.append_assoc]

/-! ## What has been read -/

/-- What comes before a key: the fields so far. -/
def Prefix (dbl : List UInt8 → Option Dbl) (fs : List (String × Json)) (body : List UInt8) : Prop :=
  fs = [] ∧ Blank body ∨ ∃ body' b, FieldsText dbl fs body' ∧ Blank b ∧ body = body' ++ 44 :: b

/-- What comes before a value. -/
inductive Slot (dbl : List UInt8 → Option Dbl) : List Bool → List UInt8 → List Token → Prop
  | top {b} : Blank b → Slot dbl [] b []
  | first {i bs ts b} : Slot dbl i bs ts → Blank b → Slot dbl (false :: i) (bs ++ 91 :: b) (ts ++ [.arrStart])
  | later {i bs ts l body b} : Slot dbl i bs ts → ElemsText dbl l body → Blank b →
      Slot dbl (false :: i) (bs ++ 91 :: (body ++ 44 :: b)) (ts ++ .arrStart :: elemEvents l)
  | field {i bs ts fs body k key b1 b2} : Slot dbl i bs ts → Prefix dbl fs body → Quoted k key → Blank b1 → Blank b2 →
      Slot dbl (true :: i) (bs ++ 123 :: (body ++ key ++ b1 ++ 58 :: b2)) (ts ++ .mapStart :: (fieldEvents fs ++ [.mapKey k]))

/-- A value has been read. -/
inductive Done (dbl : List UInt8 → Option Dbl) : List Bool → List UInt8 → List Token → Prop
  | top {j bs} : JsonText dbl j bs → Done dbl [] bs (events j)
  | array {i bs ts l body} : Slot dbl i bs ts → ElemsText dbl l body → Done dbl (false :: i) (bs ++ 91 :: body) (ts ++ .arrStart :: elemEvents l)
  | object {i bs ts fs body} : Slot dbl i bs ts → FieldsText dbl fs body → Done dbl (true :: i) (bs ++ 123 :: body) (ts ++ .mapStart :: fieldEvents fs)

theorem Slot.fill {i bs ts} {j : Json} {v b : List UInt8} (h : Slot dbl i bs ts) (hv : ValueText dbl j v) (hb : Blank b) :
    Done dbl i (bs ++ v ++ b) (ts ++ events j) := by
  cases h with
  | top h => exact .top ⟨_, v, b, rfl, h, hv, hb⟩
  | first h hc =>
    have := Done.array h (elems_one hc hv hb)
    simpa [elemEvents] using this
  | later h hl hc =>
    have := Done.array h (elems_snoc hl (elems_one hc hv hb))
    simpa [elemEvents, elemEvents_append] using this
  | field h hp hk h1 h2 =>
    obtain ⟨rfl, hp⟩ | ⟨body', c, hf, hc, rfl⟩ := hp
    · have := Done.object h (fields_one hp hk h1 h2 hv hb)
      simpa [fieldEvents] using this
    · have := Done.object h (fields_snoc hf (fields_one hc hk h1 h2 hv hb))
      simpa [fieldEvents, fieldEvents_append] using this

theorem Done.blank {i bs ts b} (h : Done dbl i bs ts) (hb : Blank b) : Done dbl i (bs ++ b) ts := by
  cases h with
  | top h =>
    obtain ⟨c, v, c', rfl, hc, hv, hc'⟩ := h
    exact .top ⟨c, v, c' ++ b, by simp, hc, hv, Blank.append hc' hb⟩
  | array h hl => have := Done.array h (elems_blank hl hb); simpa using this
  | object h hl => have := Done.object h (fields_blank hl hb); simpa using this

theorem Slot.blank {i bs ts b} (h : Slot dbl i bs ts) (hb : Blank b) : Slot dbl i (bs ++ b) ts := by
  cases h with
  | top h => exact .top (Blank.append h hb)
  | first h hc => have := Slot.first h (Blank.append hc hb); simpa using this
  | later h hl hc => have := Slot.later h hl (Blank.append hc hb); simpa using this
  | field h hp hk h1 h2 => have := Slot.field h hp hk h1 (Blank.append h2 hb); simpa using this

theorem Prefix.blank {fs body b} (h : Prefix dbl fs body) (hb : Blank b) : Prefix dbl fs (body ++ b) := by
  obtain ⟨rfl, h⟩ | ⟨body', c, hf, hc, rfl⟩ := h
  · exact .inl ⟨rfl, Blank.append h hb⟩
  · exact .inr ⟨body', c ++ b, hf, Blank.append hc hb, by simp⟩

/-- What has been read when no token is unfinished. -/
inductive Pos (dbl : List UInt8 → Option Dbl) : Want → List Bool → List UInt8 → List Token → Prop
  | value {i bs ts} : Slot dbl i bs ts → Pos dbl .value i bs ts
  | valueOrEnd {i bs ts b} : Slot dbl i bs ts → Blank b → Pos dbl .valueOrEnd (false :: i) (bs ++ 91 :: b) (ts ++ [.arrStart])
  | keyOrEnd {i bs ts b} : Slot dbl i bs ts → Blank b → Pos dbl .keyOrEnd (true :: i) (bs ++ 123 :: b) (ts ++ [.mapStart])
  | key {i bs ts fs body} : Slot dbl i bs ts → Prefix dbl fs body → Pos dbl .key (true :: i) (bs ++ 123 :: body) (ts ++ .mapStart :: fieldEvents fs)
  | colon {i bs ts fs body k key b1} : Slot dbl i bs ts → Prefix dbl fs body → Quoted k key → Blank b1 →
      Pos dbl .colon (true :: i) (bs ++ 123 :: (body ++ key ++ b1)) (ts ++ .mapStart :: (fieldEvents fs ++ [.mapKey k]))
  | separator {o i bs ts} : Done dbl (o :: i) bs ts → Pos dbl .separator (o :: i) bs ts
  | nothing {bs ts} : Done dbl [] bs ts → Pos dbl .nothing [] bs ts

theorem Pos.blank {w i bs ts b} (h : Pos dbl w i bs ts) (hb : Blank b) : Pos dbl w i (bs ++ b) ts := by
  cases h with
  | value h => exact .value (h.blank hb)
  | valueOrEnd h hc => have := Pos.valueOrEnd h (Blank.append hc hb); simpa using this
  | keyOrEnd h hc => have := Pos.keyOrEnd h (Blank.append hc hb); simpa using this
  | key h hp => have := Pos.key h (hp.blank hb); simpa using this
  | colon h hp hk h1 => have := Pos.colon h hp hk (Blank.append h1 hb); simpa using this
  | separator h => exact .separator (h.blank hb)
  | nothing h => exact .nothing (h.blank hb)

theorem Done.pos {r : Reader} {bs ts} (h : Done dbl r.inside bs ts) : Pos dbl r.valueRead.want r.valueRead.inside bs ts := by
  obtain ⟨l, w, i⟩ := r
  cases i with
  | nil => exact .nothing h
  | cons o i => exact .separator h

/-- How a number was read so far. -/
def NumText : NumAt → List UInt8 → Prop
  | .minus, raw => raw = [45]
  | .zero, raw => ∃ s, raw = s ++ [48] ∧ Sign s
  | .digits, raw => ∃ s ds, raw = s ++ ds ∧ Sign s ∧ Digits ds ∧ ds.head? ≠ some 48
  | .point, raw => ∃ s ds, raw = s ++ ds ++ [46] ∧ Sign s ∧ IntDigits ds
  | .frac, raw => ∃ s ds f, raw = s ++ ds ++ f ∧ Sign s ∧ IntDigits ds ∧ Fraction f ∧ f ≠ []
  | .exp, raw => ∃ s ds f e, raw = s ++ ds ++ f ++ [e] ∧ Sign s ∧ IntDigits ds ∧ Fraction f ∧ (e = 101 ∨ e = 69)
  | .expSign, raw => ∃ s ds f e g, raw = s ++ ds ++ f ++ [e, g] ∧ Sign s ∧ IntDigits ds ∧ Fraction f ∧ (e = 101 ∨ e = 69) ∧ (g = 43 ∨ g = 45)
  | .expDigits, raw => ∃ s ds f x, raw = s ++ ds ++ f ++ x ∧ Sign s ∧ IntDigits ds ∧ Fraction f ∧ Exponent x ∧ x ≠ []

/-- The value a word stands for. -/
def wordOf (t : Token) (w : List UInt8) : Prop := ∃ j, ValueText dbl j w ∧ events j = [t] ∧ (32 : UInt8) ∉ w

/-- What has been read. -/
def Inv (dbl : List UInt8 → Option Dbl) (r : Reader) (bs : List UInt8) (ts : List Token) : Prop :=
  match r.lex with
  | .none => Pos dbl r.want r.inside bs ts
  | .num a raw => ∃ bs0, bs = bs0 ++ raw ∧ NumText a raw ∧ Slot dbl r.inside bs0 ts ∧ (r.want = .value ∨ r.want = .valueOrEnd)
  | .str out esc => ∃ bs0 raw, bs = bs0 ++ 34 :: (raw ++ esc) ∧ StrText raw out ∧ Pos dbl r.want r.inside bs0 ts ∧
      (r.want = .value ∨ r.want = .valueOrEnd ∨ r.want = .key ∨ r.want = .keyOrEnd)
  | .word rest t => ∃ bs0 w, bs = bs0 ++ w ∧ wordOf (dbl := dbl) t (w ++ rest) ∧ Slot dbl r.inside bs0 ts ∧ (r.want = .value ∨ r.want = .valueOrEnd)

theorem Pos.slot {w i bs ts} (h : Pos dbl w i bs ts) (hw : w = .value ∨ w = .valueOrEnd) : Slot dbl i bs ts := by
  cases h with
  | value h => exact h
  | valueOrEnd h hc => exact .first h hc
  | _ => cases hw <;> contradiction

theorem Pos.prefix {w i bs ts} (h : Pos dbl w i bs ts) (hw : w = .key ∨ w = .keyOrEnd) :
    ∃ i' bs0 ts0 fs body, i = true :: i' ∧ bs = bs0 ++ 123 :: body ∧ ts = ts0 ++ .mapStart :: fieldEvents fs ∧ Slot dbl i' bs0 ts0 ∧ Prefix dbl fs body := by
  cases h with
  | key h hp => exact ⟨_, _, _, _, _, rfl, rfl, rfl, h, hp⟩
  | keyOrEnd h hc => exact ⟨_, _, _, [], _, rfl, rfl, rfl, h, .inl ⟨rfl, hc⟩⟩
  | _ => cases hw <;> contradiction

/-! ## One byte -/

theorem close_array {i bs ts l body} (h : Slot dbl i bs ts) (hl : l = [] ∧ Blank body ∨ ElemsText dbl l body) :
    Done dbl i (bs ++ 91 :: (body ++ [93])) (ts ++ .arrStart :: (elemEvents l ++ [.arrEnd])) := by
  have hv : ValueText dbl (.arr l) (91 :: (body ++ [93])) := by simp only [ValueText]; exact ⟨body, rfl, hl⟩
  have := h.fill hv Blank.nil
  simpa [events] using this

theorem close_object {i bs ts fs body} (h : Slot dbl i bs ts) (hl : fs = [] ∧ Blank body ∨ FieldsText dbl fs body) :
    Done dbl i (bs ++ 123 :: (body ++ [125])) (ts ++ .mapStart :: (fieldEvents fs ++ [.mapEnd])) := by
  have hv : ValueText dbl (.obj fs) (123 :: (body ++ [125])) := by simp only [ValueText]; exact ⟨body, rfl, hl⟩
  have := h.fill hv Blank.nil
  simpa [events] using this

theorem value_inv {r r1 : Reader} {bs ts us} {b : UInt8} (hl : r.lex = .none) (hw : r.want = .value ∨ r.want = .valueOrEnd)
    (h : Pos dbl r.want r.inside bs ts) (hs : r.value b = (r1, us, true)) : Inv dbl r1 (bs ++ [b]) (ts ++ us) := by
  have hslot := h.slot hw
  have hw4 : r.want = .value ∨ r.want = .valueOrEnd ∨ r.want = .key ∨ r.want = .keyOrEnd := by
    obtain hw | hw := hw <;> simp [hw]
  unfold Reader.value at hs
  split at hs
  · rename_i hb; subst hb; cases hs
    simp only [Inv, hl]
    exact .keyOrEnd hslot Blank.nil
  split at hs
  · rename_i hb; subst hb; cases hs
    simp only [Inv, hl]
    exact .valueOrEnd hslot Blank.nil
  split at hs
  · rename_i hb; subst hb; cases hs
    exact ⟨bs, [], by simp, .nil, by simpa using h, hw4⟩
  split at hs
  · rename_i hb; subst hb; cases hs
    exact ⟨bs, rfl, rfl, by simpa using hslot, hw⟩
  split at hs
  · rename_i hb; subst hb; cases hs
    exact ⟨bs, rfl, ⟨[], rfl, .inl rfl⟩, by simpa using hslot, hw⟩
  split at hs
  · rename_i h48 hb; cases hs
    refine ⟨bs, rfl, ⟨[], [b], rfl, .inl rfl, ⟨by simp, ?_⟩, ?_⟩, by simpa using hslot, hw⟩
    · intro d hd; simp at hd; subst hd; exact hb
    · simpa using h48
  split at hs
  · rename_i hb; subst hb; cases hs
    exact ⟨bs, [116], rfl, ⟨.sc (.bool true), by simp [ValueText, ScalarText], rfl, by decide⟩, by simpa using hslot, hw⟩
  split at hs
  · rename_i hb; subst hb; cases hs
    exact ⟨bs, [102], rfl, ⟨.sc (.bool false), by simp [ValueText, ScalarText], rfl, by decide⟩, by simpa using hslot, hw⟩
  split at hs
  · rename_i hb; subst hb; cases hs
    exact ⟨bs, [110], rfl, ⟨.null, by simp [ValueText], rfl, by decide⟩, by simpa using hslot, hw⟩
  · cases hs

theorem between_inv {r r1 : Reader} {bs ts us} {b : UInt8} (hl : r.lex = .none) (h : Pos dbl r.want r.inside bs ts)
    (hs : r.between b = (r1, us, true)) : Inv dbl r1 (bs ++ [b]) (ts ++ us) := by
  obtain ⟨lx, w, i⟩ := r
  cases hl
  unfold Reader.between at hs
  split at hs
  · rename_i hb; cases hs
    have := h.blank (Blank.one hb)
    simpa [Inv] using this
  cases h with
  | value h => exact value_inv (r := ⟨.none, .value, _⟩) rfl (.inl rfl) (.value h) hs
  | @valueOrEnd i bs ts c h hc =>
    simp only at hs
    split at hs
    · rename_i hb; subst hb; cases hs
      have := (close_array (l := []) h (.inl ⟨rfl, hc⟩))
      have := Done.pos (r := ⟨.none, .valueOrEnd, i⟩) this
      simpa [Inv, valueRead_lex, elemEvents] using this
    · exact value_inv (r := ⟨.none, .valueOrEnd, _⟩) rfl (.inr rfl) (.valueOrEnd h hc) hs
  | @keyOrEnd i bs ts c h hc =>
    simp only at hs
    split at hs
    · rename_i hb; subst hb; cases hs
      exact ⟨_, [], rfl, .nil, by simpa using Pos.keyOrEnd h hc, by simp⟩
    split at hs
    · rename_i hb; subst hb; cases hs
      have := (close_object (fs := []) h (.inl ⟨rfl, hc⟩))
      have := Done.pos (r := ⟨.none, .keyOrEnd, i⟩) this
      simpa [Inv, valueRead_lex, fieldEvents] using this
    · cases hs
  | key h hp =>
    simp only at hs
    split at hs
    · rename_i hb; subst hb; cases hs
      exact ⟨_, [], rfl, .nil, by simpa using Pos.key h hp, by simp⟩
    · cases hs
  | colon h hp hk h1 =>
    simp only at hs
    split at hs
    · rename_i hb; subst hb; cases hs
      have := Pos.value (Slot.field h hp hk h1 Blank.nil)
      simpa [Inv] using this
    · cases hs
  | nothing h => cases hs
  | @separator o i bs ts h =>
    cases h with
    | @array i bs ts l body h hb =>
      simp only at hs
      split at hs
      · rename_i hb; subst hb; cases hs
        have := Pos.value (Slot.later h (by assumption) Blank.nil)
        simpa [Inv] using this
      split at hs
      · rename_i hb; subst hb; cases hs
        have := close_array h (.inr (by assumption))
        have := Done.pos (r := ⟨.none, .separator, i⟩) this
        simpa [Inv, valueRead_lex] using this
      · cases hs
    | @object i bs ts l body h hb =>
      simp only at hs
      split at hs
      · rename_i hc; subst hc; cases hs
        have := Pos.key h (.inr ⟨_, [], hb, Blank.nil, rfl⟩)
        simpa [Inv] using this
      split at hs
      · rename_i hc; subst hc; cases hs
        have := close_object h (.inr hb)
        have := Done.pos (r := ⟨.none, .separator, i⟩) this
        simpa [Inv, valueRead_lex] using this
      · cases hs

theorem escape_text {e x : List UInt8} (h : escape e = .done x) : StrText e x := by
  unfold escape at h
  split at h
  · split at h
    · cases h
    · split at h
      · rename_i hx; cases h; exact .escape hx .nil
      · cases h
  · split at h <;> cases h
  · split at h <;> cases h
  · split at h <;> cases h
  · split at h
    · rename_i hn
      split at h
      · cases h
      · split at h
        · cases h
        · rename_i h1 h2; cases h
          have := StrText.unicode hn (by simpa using h1) (by simpa using h2) .nil
          simpa using this
    · cases h
  · split at h <;> cases h
  · split at h <;> cases h
  · split at h <;> cases h
  · split at h <;> cases h
  · split at h <;> cases h
  · split at h
    · rename_i hn hm
      split at h
      · rename_i hc
        rw [← Esc.done.inj h]
        simp only [Bool.and_eq_true] at hc
        have := StrText.pair hn hc.1 hm hc.2 .nil
        rwa [List.append_nil] at this
      · cases h
    · cases h
  · cases h

theorem digits_snoc {ds : List UInt8} {b : UInt8} (h : Digits ds) (hb : isDigit b = true) : Digits (ds ++ [b]) := by
  refine ⟨by simp, fun d hd => ?_⟩
  rcases List.mem_append.mp hd with hd | hd
  · exact h.2 d hd
  · simp at hd; subst hd; exact hb

theorem digits_one {b : UInt8} (hb : isDigit b = true) : Digits [b] := by
  refine ⟨by simp, fun d hd => ?_⟩
  simp at hd; subst hd; exact hb

theorem zero_digits : IntDigits [48] := ⟨digits_one rfl, .inl rfl⟩

theorem fraction_snoc {f : List UInt8} {b : UInt8} (h : Fraction f) (hf : f ≠ []) (hb : isDigit b = true) : Fraction (f ++ [b]) := by
  obtain rfl | ⟨ds, rfl, hd⟩ := h
  · exact absurd rfl hf
  · exact .inr ⟨ds ++ [b], rfl, digits_snoc hd hb⟩

theorem exponent_snoc {x : List UInt8} {b : UInt8} (h : Exponent x) (hx : x ≠ []) (hb : isDigit b = true) : Exponent (x ++ [b]) := by
  obtain rfl | ⟨e, s, ds, rfl, he, hs, hd⟩ := h
  · exact absurd rfl hx
  · exact .inr ⟨e, s, ds ++ [b], by simp, he, hs, digits_snoc hd hb⟩

theorem num_next {a a1 : NumAt} {raw : List UInt8} {b : UInt8} (h : NumText a raw) (hn : a.next b = some a1) : NumText a1 (raw ++ [b]) := by
  cases a <;> simp only [NumAt.next] at hn <;> simp only [NumText] at h
  · subst h
    split at hn
    · rename_i hb; subst hb; cases hn; exact ⟨[45], rfl, .inr rfl⟩
    split at hn
    · rename_i h48 hb; cases hn
      exact ⟨[45], [b], rfl, .inr rfl, digits_one hb, by simpa using h48⟩
    · cases hn
  · obtain ⟨s, rfl, hs⟩ := h
    split at hn
    · rename_i hb; subst hb; cases hn; exact ⟨s, [48], rfl, hs, zero_digits⟩
    split at hn
    · rename_i hb; cases hn; exact ⟨s, [48], [], b, by simp, hs, zero_digits, .inl rfl, hb⟩
    · cases hn
  · obtain ⟨s, ds, rfl, hs, hd, h0⟩ := h
    have hi : IntDigits ds := ⟨hd, .inr h0⟩
    split at hn
    · rename_i hb
      cases hn
      refine ⟨s, ds ++ [b], by simp, hs, digits_snoc hd hb, ?_⟩
      cases ds with
      | nil => exact absurd rfl hd.1
      | cons d ds => exact h0
    split at hn
    · rename_i hb; subst hb; cases hn; exact ⟨s, ds, rfl, hs, hi⟩
    split at hn
    · rename_i hb; cases hn; exact ⟨s, ds, [], b, by simp, hs, hi, .inl rfl, hb⟩
    · cases hn
  · obtain ⟨s, ds, rfl, hs, hd⟩ := h
    split at hn
    · rename_i hb; cases hn
      exact ⟨s, ds, [46, b], by simp, hs, hd, .inr ⟨[b], rfl, digits_one hb⟩, by simp⟩
    · cases hn
  · obtain ⟨s, ds, f, rfl, hs, hd, hf, hne⟩ := h
    split at hn
    · rename_i hb; cases hn
      exact ⟨s, ds, f ++ [b], by simp, hs, hd, fraction_snoc hf hne hb, by simp⟩
    split at hn
    · rename_i hb; cases hn; exact ⟨s, ds, f, b, by simp, hs, hd, hf, hb⟩
    · cases hn
  · obtain ⟨s, ds, f, e, rfl, hs, hd, hf, he⟩ := h
    split at hn
    · rename_i hb; cases hn
      exact ⟨s, ds, f, [e, b], by simp, hs, hd, hf, .inr ⟨e, [], [b], rfl, he, .inl rfl, digits_one hb⟩, by simp⟩
    split at hn
    · rename_i hb; cases hn
      exact ⟨s, ds, f, e, b, by simp, hs, hd, hf, he, hb⟩
    · cases hn
  · obtain ⟨s, ds, f, e, g, rfl, hs, hd, hf, he, hg⟩ := h
    split at hn
    · rename_i hb; cases hn
      exact ⟨s, ds, f, [e, g, b], by simp, hs, hd, hf, .inr ⟨e, [g], [b], rfl, he, by obtain h | h := hg <;> simp [h], digits_one hb⟩, by simp⟩
    · cases hn
  · obtain ⟨s, ds, f, x, rfl, hs, hd, hf, hx, hne⟩ := h
    split at hn
    · rename_i hb; cases hn
      exact ⟨s, ds, f, x ++ [b], by simp, hs, hd, hf, exponent_snoc hx hne hb, by simp⟩
    · cases hn

theorem literal_eq {s ds : List UInt8} (hs : Sign s) (hd : IntDigits ds) : literal (s ++ ds) = intOf s ds := by
  obtain rfl | rfl := hs
  · cases ds with
    | nil => exact absurd rfl hd.1.1
    | cons d ds =>
      have hdig : isDigit d = true := hd.1.2 d (List.mem_cons_self ..)
      rw [List.nil_append, literal, if_neg]
      intro h; subst h; simp [isDigit] at hdig
  · rfl

theorem number_text {a : NumAt} {raw : List UInt8} {x : Scalar} (h : NumText a raw) (hx : number dbl a raw = some x) : ScalarText dbl x raw := by
  have hint : ∀ s ds, raw = s ++ ds → Sign s → IntDigits ds → number dbl .digits raw = some x → ScalarText dbl x raw := by
    intro s ds he hs hd hx
    subst he
    simp only [number, literal_eq hs hd] at hx
    split at hx
    · rename_i hf; cases hx; exact ⟨s, ds, rfl, hs, hd, rfl, hf⟩
    · cases hx
  cases a <;> simp only [NumText] at h <;> try (simp [number] at hx; done)
  · obtain ⟨s, rfl, hs⟩ := h; exact hint s [48] rfl hs zero_digits hx
  · obtain ⟨s, ds, rfl, hs, hd, h0⟩ := h; exact hint s ds rfl hs ⟨hd, .inr h0⟩ hx
  · obtain ⟨s, ds, f, rfl, hs, hd, hf, hne⟩ := h
    simp only [number, Option.map_eq_some_iff] at hx
    obtain ⟨d, hd', rfl⟩ := hx
    exact ⟨s, ds, f, [], by simp, hs, hd, hf, .inl rfl, .inl hne, hd'⟩
  · obtain ⟨s, ds, f, x', rfl, hs, hd, hf, hx', hne⟩ := h
    simp only [number, Option.map_eq_some_iff] at hx
    obtain ⟨d, hd', rfl⟩ := hx
    exact ⟨s, ds, f, x', rfl, hs, hd, hf, hx', .inr hne, hd'⟩

theorem utf8_quoted {raw out : List UInt8} {s : String} (h : StrText raw out) (hs : String.fromUTF8? ⟨out.toArray⟩ = some s) : Quoted s (34 :: (raw ++ [34])) := by
  refine ⟨raw, rfl, ?_⟩
  rw [String.fromUTF8?] at hs
  split at hs
  · cases hs; exact h
  · cases hs

theorem step_inv {r r1 : Reader} {bs ts us} {b : UInt8} (h : Inv dbl r bs ts) (hs : r.step dbl b = (r1, us, true)) : Inv dbl r1 (bs ++ [b]) (ts ++ us) := by
  obtain ⟨lx, w, i⟩ := r
  cases lx with
  | none => exact between_inv rfl h hs
  | num a raw =>
    obtain ⟨bs0, rfl, hnum, hslot, hw⟩ := h
    simp only [Reader.step] at hs
    split at hs
    · rename_i hn; cases hs
      exact ⟨bs0, by simp, num_next hnum hn, by simpa using hslot, hw⟩
    · split at hs
      · rename_i x hx
        generalize hout : Reader.between (Reader.valueRead ⟨.num a raw, w, i⟩) b = out at hs
        obtain ⟨r2, us2, g⟩ := out
        cases hs
        have h1 := hslot.fill (j := .sc x) (v := raw) (by simp only [ValueText]; exact number_text hnum hx) Blank.nil
        rw [List.append_nil] at h1
        have := between_inv rfl (Done.pos (r := ⟨.num a raw, w, i⟩) h1) hout
        simpa [events] using this
      · cases hs
  | str out esc =>
    obtain ⟨bs0, raw, rfl, hraw, hpos, hw⟩ := h
    cases esc with
    | nil =>
      simp only [Reader.step] at hs
      split at hs
      · rename_i hb; subst hb
        split at hs
        · rename_i s hu
          have hq := utf8_quoted hraw hu
          split at hs
          · rename_i hk; cases hs
            obtain ⟨i', bs1, ts1, fs, body, rfl, rfl, rfl, hslot, hp⟩ := hpos.prefix hk
            have := Pos.colon hslot hp hq Blank.nil
            simpa [Inv] using this
          · rename_i hk; cases hs
            have hv : w = .value ∨ w = .valueOrEnd := by
              obtain h | h | h | h := hw
              · exact .inl h
              · exact .inr h
              · exact absurd (.inl h) hk
              · exact absurd (.inr h) hk
            have h1 := (hpos.slot hv).fill (j := .sc (.str s)) (v := 34 :: (raw ++ [34])) (by simp only [ValueText, ScalarText]; exact hq) Blank.nil
            have := Done.pos (r := ⟨.str out [], w, i⟩) h1
            simpa [Inv, valueRead_lex, events] using this
        · cases hs
      split at hs
      · rename_i hb; subst hb; cases hs
        exact ⟨bs0, raw, by simp, hraw, by simpa using hpos, hw⟩
      split at hs
      · cases hs
      · rename_i h1 h2 h3; cases hs
        refine ⟨bs0, raw ++ [b], by simp, StrText.append hraw (.plain (UInt8.not_lt.mp h3) h1 h2 .nil), by simpa using hpos, hw⟩
    | cons e esc =>
      simp only [Reader.step] at hs
      split at hs
      · rename_i x hx; cases hs
        exact ⟨bs0, raw ++ (e :: esc ++ [b]), by simp, StrText.append hraw (escape_text hx), by simpa using hpos, hw⟩
      · cases hs
        exact ⟨bs0, raw, by simp, hraw, by simpa using hpos, hw⟩
      · cases hs
  | word rest t =>
    obtain ⟨bs0, wd, rfl, hwd, hslot, hw⟩ := h
    cases rest with
    | nil => cases hs
    | cons x rest =>
      cases rest with
      | nil =>
        simp only [Reader.step] at hs
        split at hs
        · rename_i hb; subst hb; cases hs
          obtain ⟨j, hv, he, _⟩ := hwd
          have h1 := hslot.fill hv Blank.nil
          have := Done.pos (r := ⟨.word [b] t, w, i⟩) h1
          rw [he] at this
          simpa [Inv, valueRead_lex] using this
        · cases hs
      | cons y rest =>
        simp only [Reader.step] at hs
        split at hs
        · rename_i hb; subst hb; cases hs
          exact ⟨bs0, wd ++ [b], by simp, by simpa using hwd, by simpa using hslot, hw⟩
        · cases hs

theorem runs_inv {r r1 : Reader} {cs us} (h : Runs dbl r cs us r1) : ∀ {bs ts}, Inv dbl r bs ts → Inv dbl r1 (bs ++ cs) (ts ++ us) := by
  induction h with
  | nil => intro bs ts h; simpa using h
  | cons hs _ ih =>
    intro bs ts h
    have := ih (step_inv h hs)
    simpa using this

/-- The end of the input. -/
theorem complete_inv {r r1 : Reader} {bs ts us} (h : Inv dbl r bs ts) (hs : r.step dbl 32 = (r1, us, true)) (hw : r1.want = .nothing) :
    ∃ j, JsonText dbl j bs ∧ ts ++ us = events j := by
  have fin : ∀ {i bs ts}, Pos dbl .nothing i bs ts → ∃ j, JsonText dbl j bs ∧ ts = events j := by
    intro i bs ts h
    cases h with
    | nothing h => cases h with
      | top h => exact ⟨_, h, rfl⟩
  obtain ⟨lx, w, i⟩ := r
  cases lx with
  | none =>
    cases hs
    cases hw
    rw [List.append_nil]
    exact fin h
  | num a raw =>
    obtain ⟨bs0, rfl, hnum, hslot, hww⟩ := h
    simp only [Reader.step, Delim.next (.inl rfl)] at hs
    split at hs
    · rename_i x hx
      cases hs
      have h1 := hslot.fill (j := .sc x) (v := raw) (by simp only [ValueText]; exact number_text hnum hx) Blank.nil
      rw [List.append_nil] at h1
      have h2 := Done.pos (r := ⟨.num a raw, w, i⟩) h1
      have hw' : (Reader.valueRead ⟨.num a raw, w, i⟩).want = .nothing := hw
      rw [hw'] at h2
      exact fin h2
    · cases hs
  | str out esc =>
    obtain ⟨bs0, raw, rfl, hraw, hpos, hww⟩ := h
    exfalso
    have key : r1.want = w := by
      cases esc with
      | nil => cases hs; rfl
      | cons e esc =>
        simp only [Reader.step] at hs
        split at hs <;> cases hs <;> rfl
    rw [hw] at key
    subst key
    obtain h | h | h | h := hww <;> cases h
  | word rest t =>
    obtain ⟨bs0, wd, rfl, ⟨j, _, _, hno⟩, hslot, hww⟩ := h
    exfalso
    cases rest with
    | nil => cases hs
    | cons x rest =>
      have hx : (32 : UInt8) ≠ x := by
        intro h; subst h; exact hno (by simp)
      cases rest with
      | nil => simp only [Reader.step, if_neg hx] at hs; cases hs
      | cons y rest => simp only [Reader.step, if_neg hx] at hs; cases hs

/-- The reader accepts nothing but JSON texts. -/
theorem reader_only (dbl : List UInt8 → Option Dbl) : (reader dbl).OnlyJson dbl := by
  intro bs ts h
  obtain ⟨r, r2, ts1, ts2, h1, h2, rfl⟩ := h
  have hr := Runs.of_scan h1
  have hinv := runs_inv hr (bs := []) (ts := []) (Pos.value (.top Blank.nil))
  have h3 : Reader.complete dbl r = (r2, ts2, true) := h2
  generalize hst : r.step dbl 32 = out at h3
  obtain ⟨r3, us, g⟩ := out
  simp only [Reader.complete, hst] at h3
  obtain ⟨rfl, h3⟩ := Prod.ext_iff.mp h3
  obtain ⟨rfl, h3⟩ := Prod.ext_iff.mp h3
  simp only [Bool.and_eq_true, decide_eq_true_eq] at h3
  obtain ⟨rfl, hw⟩ := h3
  exact complete_inv hinv hst hw

end SJ.Read
