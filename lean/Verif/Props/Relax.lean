/-
C46: relaxing a parser (ignoring unknown members, making members optional, giving them defaults) takes nothing away.
-/
import Verif.Proofs.Relax
import Verif.Props.Whole
import Verif.DemoYajl

set_option linter.unusedVariables false

namespace SJ

variable {Y : Yajl} {E : Env} {R R' : Shape}

/-- C46. What a parser accepts, from any state and with any callbacks, a relaxed version of it accepts too, with the same values, the same current
parser and the same callbacks with the same arguments. -/
theorem C46_tokens (h : Relaxes R R') {ts : List Token} {s s' : St} (hr : run E R ts s = .ok () s') : run E R' ts s = .ok () s' := by
  have := h.run E ts s
  rw [hr] at this
  generalize run E R' ts s = r at this ⊢
  cases this
  rfl

/-- C46. The only errors that may disappear are the complaints about unknown and about missing members. Every other one remains,
after the same tokens and in the same state. -/
theorem C46_errors (h : Relaxes R R') {ts : List Token} {s s' : St} {e : Exn} (hr : run E R ts s = .throw e s')
    (he : ∀ msg, e = .std msg → ¬ Complaint msg) : run E R' ts s = .throw e s' := by
  have := h.run E ts s
  rw [hr] at this
  generalize run E R' ts s = r at this ⊢
  cases this with
  | same => rfl
  | complains hc => exact absurd hc (he _ rfl)

/-- C46. A new parser is the same in both versions. -/
theorem C46_new (h : Relaxes R R') : St.init R' = St.init R ∧ PSt.init Y R' = PSt.init Y R :=
  ⟨h.init, by simp only [PSt.init, h.init]⟩

/-! ## `parse()` and `finish()` -/

/-- The outcome of telling the dispatcher some tokens: the same, unless the strict parser complains. -/
inductive SlackB : PRes Y Bool → PRes Y Bool → Prop
  | same (r) : SlackB r r
  | complains {s : PSt Y} {r'} (h : Complains s.err) : SlackB (.ok false s) r'

theorem Relaxes.onToken (h : Relaxes R R') (t : Token) (s : PSt Y) : SlackB (SJ.onToken Y E R t s) (SJ.onToken Y E R' t s) := by
  simp only [SJ.onToken]
  have := h.dispatch E t s.st
  generalize SJ.dispatch E R t s.st = r at this ⊢
  generalize SJ.dispatch E R' t s.st = r' at this ⊢
  cases this with
  | same => exact .same _
  | complains hc => exact .complains ⟨_, hc, rfl⟩

theorem Relaxes.report (h : Relaxes R R') : ∀ (ts : List Token) (s : PSt Y), SlackB (SJ.report Y E R ts s) (SJ.report Y E R' ts s)
  | [], s => .same _
  | t :: ts, s => by
    simp only [SJ.report, P.bind]
    have := h.onToken (E := E) t s
    generalize SJ.onToken Y E R t s = r at this ⊢
    generalize SJ.onToken Y E R' t s = r' at this ⊢
    cases this with
    | same =>
      cases r with
      | ok go s1 =>
        cases go with
        | true => simp only [if_true]; exact h.report ts s1
        | false => simp only [Bool.false_eq_true, if_false]; exact .same _
      | _ => exact .same _
    | complains hc => simp only [Bool.false_eq_true, if_false]; exact .complains hc

theorem Relaxes.advance (h : Relaxes R R') (out : Y.H × List Token × Bool) (s : PSt Y) : SlackB (SJ.advance Y E R out s) (SJ.advance Y E R' out s) := by
  simp only [SJ.advance, P.bind]
  have := h.report (E := E) out.2.1 s
  generalize SJ.report Y E R out.2.1 s = r at this ⊢
  generalize SJ.report Y E R' out.2.1 s = r' at this ⊢
  cases this with
  | same => exact .same _
  | complains hc => simp only [Bool.false_eq_true, if_false]; exact .complains hc

theorem Relaxes.yajlParse (h : Relaxes R R') : ∀ (bs : List UInt8) (s : PSt Y), SlackB (SJ.yajlParse Y E R bs s) (SJ.yajlParse Y E R' bs s)
  | [], s => .same _
  | b :: bs, s => by
    simp only [SJ.yajlParse]
    split
    · simp only [P.bind]
      have := h.advance (E := E) (Y.step s.handle b) s
      generalize SJ.advance Y E R (Y.step s.handle b) s = r at this ⊢
      generalize SJ.advance Y E R' (Y.step s.handle b) s = r' at this ⊢
      cases this with
      | same =>
        cases r with
        | ok go s1 =>
          cases go with
          | true => simp only [if_true]; exact h.yajlParse bs s1
          | false => simp only [Bool.false_eq_true, if_false]; exact .same _
        | _ => exact .same _
      | complains hc => simp only [Bool.false_eq_true, if_false]; exact .complains hc
    · exact .same _

/-- The outcome of a call: the same, unless the strict parser complains. (`ub`: reporting the complaint reads a buffer that is gone, see C25.) -/
inductive SlackP : PRes Y Unit → PRes Y Unit → Prop
  | same (r) : SlackP r r
  | complains {sj y s r'} (h : Complains sj) : SlackP (.throw (.parsing sj y) s) r'
  | ub (r') : SlackP .ub r'

theorem slack_error {s : PSt Y} (h : Complains s.err) (m : Mem) (r' : PRes Y Unit) : SlackP (throwParsingError Y m s) r' := by
  simp only [throwParsingError]
  split
  · exact .ub _
  · exact .complains h

theorem Relaxes.parse (h : Relaxes R R') (m : Mem) (p : Ptr) (len : Nat) (s : PSt Y) : SlackP (SJ.parse Y E R m p len s) (SJ.parse Y E R' m p len s) := by
  simp only [SJ.parse]
  split
  · exact .same _
  · rename_i bs hb
    simp only [P.bind]
    generalize PSt.renew Y { s with data := p, len := len } = s0
    have := h.yajlParse (E := E) bs s0
    generalize SJ.yajlParse Y E R bs s0 = r at this ⊢
    generalize SJ.yajlParse Y E R' bs s0 = r' at this ⊢
    cases this with
    | same => exact .same _
    | complains hc => simp only [Bool.false_eq_true, if_false]; exact slack_error (by exact hc) m _

theorem Relaxes.yajlComplete (h : Relaxes R R') (s : PSt Y) : SlackB (SJ.yajlComplete Y E R s) (SJ.yajlComplete Y E R' s) := by
  simp only [SJ.yajlComplete]
  split
  · exact h.advance _ _
  · exact .same _

theorem Relaxes.finishDoc (h : Relaxes R R') (m : Mem) (s : PSt Y) : SlackP (SJ.finishDoc Y E R m s) (SJ.finishDoc Y E R' m s) := by
  simp only [SJ.finishDoc, P.bind]
  have := h.yajlComplete (E := E) { s with resetNeeded := true }
  generalize SJ.yajlComplete Y E R { s with resetNeeded := true } = r at this ⊢
  generalize SJ.yajlComplete Y E R' { s with resetNeeded := true } = r' at this ⊢
  cases this with
  | same => exact .same _
  | complains hc => simp only [Bool.false_eq_true, if_false]; exact slack_error hc m _

theorem SlackP.bind {m m' : P Y Unit} {f f' : Unit → P Y Unit} {s : PSt Y} (h : SlackP (m s) (m' s)) (hf : ∀ s, SlackP (f () s) (f' () s)) :
    SlackP (P.bind m f s) (P.bind m' f' s) := by
  simp only [P.bind]
  generalize m s = r at h ⊢
  generalize m' s = r' at h ⊢
  cases h with
  | same =>
    cases r with
    | ok a s1 => exact hf s1
    | _ => exact .same _
  | complains hc => exact .complains hc
  | ub => exact .ub _

theorem Relaxes.parseAll (h : Relaxes R R') : ∀ (cs : List Chunk) (s : PSt Y), SlackP (SJ.parseAll Y E R cs s) (SJ.parseAll Y E R' cs s)
  | [], s => .same _
  | c :: cs, s => SlackP.bind (h.parse c.mem c.ptr c.len s) fun s => h.parseAll cs s

theorem Relaxes.parseDocument (h : Relaxes R R') (cs : List Chunk) (m : Mem) (s : PSt Y) :
    SlackP (SJ.parseDocument Y E R cs m s) (SJ.parseDocument Y E R' cs m s) :=
  SlackP.bind (h.parseAll cs s) fun s => h.finishDoc m s

/-- C46. A text (in any chunks, after any history) for which `parse()` and `finish()` return: they do so for the relaxed version too, which then holds
the same values and has called the same callbacks. -/
theorem C46_document (h : Relaxes R R') {cs : List Chunk} {m : Mem} {s s' : PSt Y} (hr : parseDocument Y E R cs m s = .ok () s') :
    parseDocument Y E R' cs m s = .ok () s' := by
  have := h.parseDocument (E := E) cs m s
  rw [hr] at this
  generalize parseDocument Y E R' cs m s = r at this ⊢
  cases this
  rfl

/-- C46. Every error reported by `parse()` or `finish()` other than such a complaint is reported for the relaxed version too. -/
theorem C46_document_errors (h : Relaxes R R') {cs : List Chunk} {m : Mem} {s s' : PSt Y} {sj y : String}
    (hr : parseDocument Y E R cs m s = .throw (.parsing sj y) s') (he : ¬ Complains sj) :
    parseDocument Y E R' cs m s = .throw (.parsing sj y) s' := by
  have := h.parseDocument (E := E) cs m s
  rw [hr] at this
  generalize parseDocument Y E R' cs m s = r at this ⊢
  cases this with
  | same => rfl
  | complains hc => exact absurd hc he

/-- C46. The same for a single `parse()` call. -/
theorem C46_parse (h : Relaxes R R') {m : Mem} {p : Ptr} {len : Nat} {s s' : PSt Y} (hr : parse Y E R m p len s = .ok () s') :
    parse Y E R' m p len s = .ok () s' := by
  have := h.parse (E := E) m p len s
  rw [hr] at this
  generalize parse Y E R' m p len s = r at this ⊢
  cases this
  rfl

/-- C46. The same for a single `finish()` call. -/
theorem C46_finish (h : Relaxes R R') {m : Mem} {s s' : PSt Y} (hr : finishDoc Y E R m s = .ok () s') :
    finishDoc Y E R' m s = .ok () s' := by
  have := h.finishDoc (E := E) m s
  rw [hr] at this
  generalize finishDoc Y E R' m s = r at this ⊢
  cases this
  rfl

/-! ## Examples -/

section Examples
open Demo

/-- `inner` refusing unknown members, with a mandatory `id`; and a version that ignores them, where `id` is optional and has a default. -/
def laxInner : Shape := .object .auto false
  [({ name := .str "id", optional := true, dflt := some (.sc (.int 0)) }, .value .int),
   ({ name := .str "tags", optional := true, dflt := some (.arr []) }, .array true (.value .str))]

def laxOuter : Shape := .object .plain false
  [({ name := .str "name", optional := true }, .value .str), ({ name := .str "part", optional := true }, laxInner),
   ({ name := .str "limits", optional := true }, .map true (.value .int))]

theorem lax_inner : Relaxes inner laxInner :=
  .object (fun h => rfl) (.cons rfl (fun h => rfl) (fun v h => by simp at h) .value (.cons rfl (fun h => h) (fun v h => h) (.array .value) .nil))

theorem lax_outer : Relaxes outer laxOuter :=
  .object (fun h => h) (.cons rfl (fun h => rfl) (fun v h => h) .value (.cons rfl (fun h => h) (fun v h => h) lax_inner
    (.cons rfl (fun h => h) (fun v h => h) (.map .value) .nil)))

/-- A document accepted by both (`C46_tokens`) ... -/
example : run accepting laxOuter (events doc) (St.init laxOuter) = .ok () (after accepting outer (events doc) (St.init outer)) := by
  rw [(C46_new (Y := yajl) lax_outer).1]
  exact C46_tokens lax_outer (after_ok (by decide +kernel))

/-- ... as a text (`C46_document`, `C46_parse`, `C46_finish`) ... -/
example : parseDocument yajl accepting laxOuter pieces nowhere (PSt.init yajl outer) =
    .ok () (left (parseDocument yajl accepting outer pieces nowhere (PSt.init yajl outer)) (PSt.init yajl outer)) :=
  C46_document lax_outer (left_ok (by decide +kernel))

/-- ... documents that the strict version complains about, in its three ways, and the relaxed one accepts ... -/
example :
    failure accepting inner (events (.obj [("id", .sc (.int 1)), ("x", .null)])) (St.init inner) = some (.std "Unexpected member x") ∧
    failure accepting inner (events (.obj [("tags", .arr [])])) (St.init inner) = some (.std "Can not set value: Mandatory member id is not present") ∧
    failure accepting outer (events (.obj [("limits", .obj [])])) (St.init outer) = some (.std "Mandatory member name is not present") ∧
    fine accepting laxInner (events (.obj [("id", .sc (.int 1)), ("x", .null)])) (St.init inner) = true ∧
    fine accepting laxInner (events (.obj [("tags", .arr [])])) (St.init inner) = true ∧
    fine accepting laxOuter (events (.obj [("limits", .obj [])])) (St.init outer) = true := by decide +kernel

theorem not_complaint {msg : String} (h : msg.toList.head? ≠ some 'U' ∨ (msg.toList.take 11) ≠ "Unexpected ".toList ∨ msg.toList[11]? = some 't')
    (h2 : msg.toList.head? = some 'U') : ¬ Complaint msg := by
  intro hc
  cases hc with
  | unknown name =>
    rcases h with h | h | h
    · exact h h2
    · simp at h
    · simp at h
  | _ => simp at h2

theorem not_complains {text : String} (h : (text.toList.take 11) ≠ "Unexpected ".toList ∨ text.toList[11]? = some 't')
    (h2 : text.toList.head? = some 'U') : ¬ Complains text := by
  rintro ⟨msg, hc, rfl⟩
  cases hc with
  | unknown name =>
    rw [cText_append (by decide +kernel)] at h
    rcases h with h | h
    · simp at h
    · simp at h
  | mandatory name => rw [String.append_assoc, cText_append (by decide +kernel)] at h2; simp at h2
  | noDefault name => rw [String.append_assoc, cText_append (by decide +kernel)] at h2; simp at h2
  | mandatoryAlt n => rw [String.append_assoc, cText_append (by decide +kernel)] at h2; simp at h2
  | noDefaultAlt n => rw [String.append_assoc, cText_append (by decide +kernel)] at h2; simp at h2
  | wrapped => rw [cText_append (by decide +kernel)] at h2; simp at h2

/-- ... and one that both refuse for the same reason (`C46_errors`, `C46_document_errors`). -/
example : ∃ s', run accepting laxInner [.mapStart, .mapKey "id", .scalar (.bool true)] (St.init inner) = .throw (.std "Unexpected token boolean") s' :=
  ⟨_, C46_errors lax_inner (after_throw (by decide +kernel)) (fun msg h => by injection h with h; subst h; exact not_complaint (by decide) (by decide))⟩

def wrongText : String := "{\"id\": true}"

example : ∃ y s', parseDocument yajl accepting laxInner [chunk wrongText] (buffer wrongText) (PSt.init yajl inner) =
    .throw (.parsing "Unexpected token boolean" y) s' := by
  have h : thrown (parseDocument yajl accepting inner [chunk wrongText] (buffer wrongText) (PSt.init yajl inner)) =
      some (.parsing "Unexpected token boolean" "parse error near {\"id\": true}") := by decide +kernel
  exact ⟨_, _, C46_document_errors lax_inner (left_throw (d := PSt.init yajl inner) h) (not_complains (by decide) (by decide))⟩

end Examples

end SJ
