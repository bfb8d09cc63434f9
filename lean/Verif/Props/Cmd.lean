import Verif.Model.Cmd
import Verif.Props.Core
/-!
The command jpath: C41.
-/
namespace JP
open Spec

variable (env : Env)

namespace Spec

/-- What the command meets on its inputs. -/
inductive Event where
  | cannotOpen
  | item (it : Item)
  | readError

/-- The events of all inputs in turn, each with the number of its input. -/
def events (file : Nat) : List Input → List (Nat × Event)
  | [] => []
  | none :: r => (file, .cannotOpen) :: events (file + 1) r
  | some src :: r =>
    src.items.map (fun it => (file, .item it)) ++ ((if src.readError then [(file, .readError)] else []) ++ events (file + 1) r)

/-- How the command ends after `n` events, given the event `n`. -/
inductive Ends (eval : Nat → V → Option (Res RErr GoSlice)) (encodes : List V → Bool) (ev : List (Nat × Event)) (n : Nat) : Exit → Prop
  /-- Success: there were no more. -/
  | ok : n = ev.length → Ends eval encodes ev n .ok
  | openFailed (f : Nat) : ev[n]? = some (f, .cannotOpen) → Ends eval encodes ev n (.openFailed f)
  | decode (f : Nat) (it : Item) : ev[n]? = some (f, .item it) → it.val = none → Ends eval encodes ev n (.inputFailed f (.decode it.pos))
  | eval (f : Nat) (it : Item) (root : V) (x : RErr) : ev[n]? = some (f, .item it) → it.val = some root →
      eval n root = some (.err x) → Ends eval encodes ev n (.inputFailed f (.eval it.pos x))
  | encode (f : Nat) (it : Item) (root : V) (res : GoSlice) : ev[n]? = some (f, .item it) → it.val = some root →
      eval n root = some (.ok res) → encodes res.elems = false → Ends eval encodes ev n (.inputFailed f (.encode it.pos))
  | read (f : Nat) : ev[n]? = some (f, .readError) → Ends eval encodes ev n (.inputFailed f .read)
  | crashed (f : Nat) (it : Item) (root : V) : ev[n]? = some (f, .item it) → it.val = some root →
      ((∃ m, eval n root = some (.panic m)) ∨ eval n root = some .stuck) → Ends eval encodes ev n .crashed

/-- The list written for each of the values before the end. -/
def Writes (eval : Nat → V → Option (Res RErr GoSlice)) (encodes : List V → Bool) (ev : List (Nat × Event)) (outs : List (List V)) : Prop :=
  ∀ i l, outs[i]? = some l → ∃ f it root res, ev[i]? = some (f, .item it) ∧ it.val = some root ∧ eval i root = some (.ok res) ∧
    res.elems = l ∧ encodes l = true

end Spec

variable {eval : Nat → V → Option (Res RErr GoSlice)} {encodes : List V → Bool}

private theorem readItems_spec {re : Bool} (pre : List (Nat × Event)) (f : Nat) (rest : List (Nat × Event)) :
    ∀ (items : List Item) (k : Nat) (outs : List (List V)) (e : CmdEnd), readItems eval encodes re k items = some (outs, e) →
    k = pre.length → ∀ pouts : List (List V), pouts.length = pre.length → Writes eval encodes pre pouts →
    ∃ ev, ev = pre ++ (items.map (fun it => (f, Event.item it)) ++ ((if re then [(f, Event.readError)] else []) ++ rest)) ∧
      Writes eval encodes ev (pouts ++ outs) ∧
      match e with
      | .done => re = false ∧ outs.length = items.length
      | .failed x => Ends eval encodes ev (pouts ++ outs).length (.inputFailed f x)
      | .crashed => Ends eval encodes ev (pouts ++ outs).length .crashed := by
  intro items
  induction items generalizing pre with
  | nil =>
    intro k outs e h hk pouts hp hw
    refine ⟨_, rfl, ?_, ?_⟩
    all_goals
      simp only [readItems, Option.some.injEq, Prod.mk.injEq] at h
      obtain ⟨rfl, rfl⟩ := h
    · intro i l hi
      rw [List.append_nil] at hi
      obtain ⟨f', it, root, res, h1, h2⟩ := hw i l hi
      exact ⟨f', it, root, res, by rw [List.getElem?_append_left (by rw [List.getElem?_eq_some_iff] at h1; exact h1.1)]; exact h1, h2⟩
    · cases re with
      | false => exact ⟨rfl, rfl⟩
      | true =>
        simp only [if_true]
        refine .read f ?_
        simp [hp]
  | cons it r ih =>
    intro k outs e h hk pouts hp hw
    have hev : (pre ++ ((it :: r).map (fun it => (f, Event.item it)) ++ ((if re then [(f, Event.readError)] else []) ++ rest)))[k]? =
        some (f, .item it) := by
      subst hk; simp
    have hwr : Writes eval encodes (pre ++ ((it :: r).map (fun it => (f, Event.item it)) ++ ((if re then [(f, Event.readError)] else []) ++ rest)))
        (pouts ++ []) := by
      intro i l hi
      rw [List.append_nil] at hi
      obtain ⟨f', it, root, res, h1, h2⟩ := hw i l hi
      exact ⟨f', it, root, res, by rw [List.getElem?_append_left (by rw [List.getElem?_eq_some_iff] at h1; exact h1.1)]; exact h1, h2⟩
    have hn : (pouts ++ ([] : List (List V))).length = k := by simp [hp, hk]
    unfold readItems at h
    cases hv : it.val with
    | none =>
      simp only [hv, Option.some.injEq, Prod.mk.injEq] at h
      obtain ⟨rfl, rfl⟩ := h
      exact ⟨_, rfl, hwr, .decode f it (by rw [hn]; exact hev) hv⟩
    | some root =>
      rw [hv] at h
      dsimp only at h
      cases hx : eval k root with
      | none => rw [hx] at h; cases h
      | some res =>
        rw [hx] at h
        cases res with
        | err x =>
          simp only [Option.some.injEq, Prod.mk.injEq] at h
          obtain ⟨rfl, rfl⟩ := h
          exact ⟨_, rfl, hwr, .eval f it root x (by rw [hn]; exact hev) hv (by rw [hn]; exact hx)⟩
        | panic m =>
          simp only [Option.some.injEq, Prod.mk.injEq] at h
          obtain ⟨rfl, rfl⟩ := h
          exact ⟨_, rfl, hwr, .crashed f it root (by rw [hn]; exact hev) hv (.inl ⟨m, by rw [hn]; exact hx⟩)⟩
        | stuck =>
          simp only [Option.some.injEq, Prod.mk.injEq] at h
          obtain ⟨rfl, rfl⟩ := h
          exact ⟨_, rfl, hwr, .crashed f it root (by rw [hn]; exact hev) hv (.inr (by rw [hn]; exact hx))⟩
        | ok res =>
          dsimp only at h
          cases henc : encodes res.elems with
          | false =>
            rw [henc] at h
            simp only [Bool.false_eq_true, if_false, Option.some.injEq, Prod.mk.injEq] at h
            obtain ⟨rfl, rfl⟩ := h
            exact ⟨_, rfl, hwr, .encode f it root res (by rw [hn]; exact hev) hv (by rw [hn]; exact hx) henc⟩
          | true =>
            rw [henc] at h
            simp only [if_true] at h
            cases hr : readItems eval encodes re (k + 1) r with
            | none => rw [hr] at h; cases h
            | some oe =>
              obtain ⟨outs', e'⟩ := oe
              rw [hr] at h
              simp only [Option.some.injEq, Prod.mk.injEq] at h
              obtain ⟨rfl, rfl⟩ := h
              obtain ⟨ev, hev', hw', he'⟩ := ih (pre ++ [(f, Event.item it)]) (k + 1) outs' e' hr (by simp [hk]) (pouts ++ [res.elems])
                (by simp [hp]) (by
                  intro i l hi
                  rw [List.getElem?_append] at hi
                  split at hi
                  · rename_i hlt
                    obtain ⟨f', it', root', res', h1, h2⟩ := hw i l hi
                    exact ⟨f', it', root', res', by rw [List.getElem?_append_left (by omega)]; exact h1, h2⟩
                  · rename_i hlt
                    have hi0 : i - pouts.length = 0 := by
                      rw [List.getElem?_eq_some_iff] at hi; have := hi.1; simp at this; omega
                    rw [hi0] at hi
                    simp only [List.getElem?_cons_zero, Option.some.injEq] at hi
                    subst hi
                    have hik : i = k := by omega
                    refine ⟨f, it, root, res, ?_, hv, by rw [hik]; exact hx, rfl, henc⟩
                    rw [show i = pre.length by omega]; simp)
              refine ⟨ev, by rw [hev']; simp, by simpa using hw', ?_⟩
              cases e' with
              | done => exact ⟨he'.1, by simp [he'.2]⟩
              | failed x => simpa using he'
              | crashed => simpa using he'

private theorem cmdLoop_spec : ∀ (inputs : List Input) (pre : List (Nat × Event)) (f k : Nat) (outs : List (List V)) (e : Exit),
    cmdLoop eval encodes f k inputs = some (outs, e) → k = pre.length → ∀ pouts : List (List V), pouts.length = pre.length →
    Writes eval encodes pre pouts →
    Writes eval encodes (pre ++ events f inputs) (pouts ++ outs) ∧ Ends eval encodes (pre ++ events f inputs) (pouts ++ outs).length e := by
  intro inputs
  induction inputs with
  | nil =>
    intro pre f k outs e h hk pouts hp hw
    simp only [cmdLoop, Option.some.injEq, Prod.mk.injEq] at h
    obtain ⟨rfl, rfl⟩ := h
    refine ⟨by simpa [events] using hw, .ok (by simp [events, hp])⟩
  | cons inp r ih =>
    intro pre f k outs e h hk pouts hp hw
    cases inp with
    | none =>
      simp only [cmdLoop, Option.some.injEq, Prod.mk.injEq] at h
      obtain ⟨rfl, rfl⟩ := h
      refine ⟨?_, .openFailed f (by simp [events, hp])⟩
      intro i l hi
      rw [List.append_nil] at hi
      obtain ⟨f', it, root, res, h1, h2⟩ := hw i l hi
      exact ⟨f', it, root, res, by rw [List.getElem?_append_left (by rw [List.getElem?_eq_some_iff] at h1; exact h1.1)]; exact h1, h2⟩
    | some src =>
      unfold cmdLoop at h
      cases hr : readItems eval encodes src.readError k src.items with
      | none => rw [hr] at h; cases h
      | some oe =>
        obtain ⟨outs', e'⟩ := oe
        obtain ⟨ev, rfl, hw', he'⟩ := readItems_spec pre f (events (f + 1) r) src.items k outs' e' hr hk pouts hp hw
        rw [hr] at h
        cases e' with
        | failed x =>
          simp only [Option.some.injEq, Prod.mk.injEq] at h
          obtain ⟨rfl, rfl⟩ := h
          exact ⟨hw', he'⟩
        | crashed =>
          simp only [Option.some.injEq, Prod.mk.injEq] at h
          obtain ⟨rfl, rfl⟩ := h
          exact ⟨hw', he'⟩
        | done =>
          dsimp only at h he'
          cases hc : cmdLoop eval encodes (f + 1) (k + src.items.length) r with
          | none => rw [hc] at h; cases h
          | some oe =>
            obtain ⟨outs2, e2⟩ := oe
            rw [hc] at h
            simp only [Option.some.injEq, Prod.mk.injEq] at h
            obtain ⟨rfl, rfl⟩ := h
            have hev : pre ++ events f (some src :: r) = pre ++ src.items.map (fun it => (f, Event.item it)) ++ events (f + 1) r := by
              simp [events, he'.1]
            have hw2 : Writes eval encodes (pre ++ src.items.map (fun it => (f, Event.item it))) (pouts ++ outs') := by
              intro i l hi
              obtain ⟨f', it, root, res, h1, h2⟩ := hw' i l hi
              refine ⟨f', it, root, res, ?_, h2⟩
              have hlt : i < (pre ++ src.items.map (fun it => (f, Event.item it))).length := by
                rw [List.getElem?_eq_some_iff] at hi
                have := hi.1
                simp [hp, he'.2] at this ⊢
                omega
              rw [← List.append_assoc, List.getElem?_append_left hlt] at h1
              exact h1
            have := ih (pre ++ src.items.map (fun it => (f, Event.item it))) (f + 1) (k + src.items.length) outs2 e2 hc
              (by simp [hk]) (pouts ++ outs') (by simp [hp, he'.2]) hw2
            rw [hev, ← List.append_assoc pouts]
            exact this

variable (oracles : Nat → Oracle) (encodes : List V → Bool)

/-! ### C41 jpath writes one result list per input value -/

/-- The lists written are those of `Eval` on the values of the inputs in turn, one for each, up to an event at
which the command stops for the stated reason. -/
theorem C41_one_list_per_value (expr : Bytes) (p : JSONPath) (hp : Compile env expr = .ok p) (inputs : List Input) (outs : List (List V))
    (ex : Exit) (h : jpathMain env oracles encodes expr inputs = some (outs, some ex)) :
    (∀ i l, outs[i]? = some l → ∃ f it root, (events 0 inputs)[i]? = some (f, .item it) ∧ it.val = some root ∧
      Eval env (oracles i) p root = some (.ok (some l)) ∧ encodes l = true) ∧
    Ends (fun k root => Eval env (oracles k) p root) encodes (events 0 inputs) outs.length ex := by
  unfold jpathMain at h
  rw [hp] at h
  dsimp only at h
  cases hc : cmdLoop (fun k v => Eval env (oracles k) p v) encodes 0 0 inputs with
  | none => rw [hc] at h; cases h
  | some oe =>
    obtain ⟨outs', e'⟩ := oe
    rw [hc] at h
    simp only [Option.some.injEq, Prod.mk.injEq] at h
    obtain ⟨rfl, rfl⟩ := h
    obtain ⟨hw, he⟩ := cmdLoop_spec inputs [] 0 0 _ _ hc rfl [] rfl (by intro i l hi; cases hi)
    simp only [List.nil_append] at hw he
    refine ⟨?_, he⟩
    intro i l hi
    obtain ⟨f, it, root, res, h1, h2, h3, h4, h5⟩ := hw i l hi
    refine ⟨f, it, root, h1, h2, ?_, h5⟩
    obtain ⟨vs, rfl⟩ := C06_result_not_nil env _ p root res h3
    cases h4
    exact h3

example := C41_one_list_per_value Ex.env (fun _ => Oracle.id) (fun _ => true) (b! "$") _ rfl [none] [] (.openFailed 0) rfl

/-- A text that is not a path is reported before any input is read. -/
theorem C41_bad_path (expr : Bytes) (hp : ∀ p, Compile env expr ≠ .ok p) (inputs : List Input) :
    jpathMain env oracles encodes expr inputs = some ([], none) := by
  unfold jpathMain
  cases h : Compile env expr with
  | ok p => exact absurd h (hp p)
  | err | panic | stuck => rfl

example := C41_bad_path Ex.env (fun _ => Oracle.id) (fun _ => true) (b! "$.a[0,#]") (fun p h => by cases h) [none]

/-- The command ends on every list of inputs (for programs of fewer than 2^22 orders). -/
theorem C41_terminates_partial (expr : Bytes) (p : JSONPath) (hp : Compile env expr = .ok p)
    (hs : p.prog.orders.length < 2 ^ 22) (inputs : List Input)
    (hw : ∀ src ∈ inputs.filterMap id, ∀ it ∈ src.items, ∀ root, it.val = some root → root.WF) :
    ∃ outs ex, jpathMain env oracles encodes expr inputs = some (outs, some ex) := by
  have hev : ∀ k (root : V), root.WF → ∃ r, Eval env (oracles k) p root = some r := fun k root hr =>
    let ⟨r, h, _⟩ := C02_eval_terminates_partial env (oracles k) expr p hp hs root hr
    ⟨r, h⟩
  have hri : ∀ re (items : List Item) k, (∀ it ∈ items, ∀ root, it.val = some root → root.WF) → ∃ r, readItems (fun k v => Eval env (oracles k) p v) encodes re k items = some r := by
    intro re items
    induction items with
    | nil => intro k _; exact ⟨_, rfl⟩
    | cons it r ih =>
      intro k hw
      unfold readItems
      cases hv : it.val with
      | none => exact ⟨_, rfl⟩
      | some root =>
        obtain ⟨x, hx⟩ := hev k root (hw it (by simp) root hv)
        dsimp only
        rw [hx]
        cases x with
        | ok res =>
          dsimp only
          split
          · obtain ⟨r', hr⟩ := ih (k + 1) (fun it h => hw it (by simp [h]))
            rw [hr]
            exact ⟨_, rfl⟩
          · exact ⟨_, rfl⟩
        | err | panic | stuck => exact ⟨_, rfl⟩
  have hcl : ∀ (inputs : List Input) f k,
      (∀ src ∈ inputs.filterMap id, ∀ it ∈ src.items, ∀ root, it.val = some root → root.WF) → ∃ r, cmdLoop (fun k v => Eval env (oracles k) p v) encodes f k inputs = some r := by
    intro inputs
    induction inputs with
    | nil => intro f k _; exact ⟨_, rfl⟩
    | cons inp r ih =>
      intro f k hw
      cases inp with
      | none => exact ⟨_, rfl⟩
      | some src =>
        unfold cmdLoop
        obtain ⟨⟨outs, e⟩, hr⟩ := hri src.readError src.items k (hw src (by simp))
        rw [hr]
        cases e with
        | done =>
          obtain ⟨r', hr'⟩ := ih (f + 1) (k + src.items.length) (fun src h => hw src (by
            simp only [List.mem_filterMap, id_eq, exists_eq_right] at h ⊢
            exact List.mem_cons_of_mem _ h))
          dsimp only
          rw [hr']
          exact ⟨_, rfl⟩
        | failed | crashed => exact ⟨_, rfl⟩
  obtain ⟨⟨outs, e⟩, h⟩ := hcl inputs 0 0 hw
  refine ⟨outs, e, ?_⟩
  unfold jpathMain
  rw [hp]
  dsimp only
  rw [h]

example := C41_terminates_partial Ex.env (fun _ => Oracle.id) (fun _ => true) (b! "$..a") _ rfl (by decide) [some ⟨[⟨0, some Ex.doc⟩, ⟨5, none⟩], false⟩, none]
  (by intro src hs it hi root hr; simp at hs; subst hs; simp at hi; rcases hi with rfl | rfl <;> cases hr; exact Ex.doc_wf)

/-- The value that an error names. -/
def Spec.named : CmdErr → Option Nat
  | .decode pos | .eval pos _ | .encode pos => some pos
  | .read => none

/-- `ls` are the lines of a text, without their newlines. -/
inductive Spec.Lines : Bytes → List Bytes → Prop
  | nil : Lines [] []
  | last (l : Bytes) : l ≠ [] → 10 ∉ l → Lines l [l]
  | cons (l t : Bytes) (ls : List Bytes) : 10 ∉ l → Lines t ls → Lines (l ++ 10 :: t) (l :: ls)

/-- Full statement for the flag -l: when the command stops at some line, the error names it. -/
def NamesLineRule : Prop :=
  ∀ (decode : Bytes → Option V) (expr text : Bytes) (ls : List Bytes) (p : JSONPath) (outs : List (List V)) (e : CmdErr),
    Compile env expr = .ok p → Lines text ls →
    jpathMain env oracles encodes expr [some (lineSource decode text)] = some (outs, some (.inputFailed 0 e)) →
    named e = some (outs.length + 1)

private theorem scan_prefix {max : Nat} (t : Bytes) : ∀ (l cur : Bytes) (n : Nat), 10 ∉ l → n + l.length < max →
    scanLinesGo max cur n (l ++ t) = scanLinesGo max (l.reverse ++ cur) (n + l.length) t := by
  intro l
  induction l with
  | nil => intro cur n _ _; rfl
  | cons c l ih =>
    intro cur n h hl
    simp only [List.length_cons] at hl
    rw [List.cons_append, scanLinesGo, if_neg (by intro hc; exact h (by simp [hc])), if_neg (by omega)]
    have := ih (c :: cur) (n + 1) (by intro hm; exact h (by simp [hm])) (by omega)
    rw [this]
    simp only [List.reverse_cons, List.append_assoc, List.singleton_append, List.length_cons]
    rw [show n + 1 + l.length = n + (l.length + 1) by omega]

private theorem scan_long {max : Nat} (t : Bytes) : ∀ (l cur : Bytes) (n : Nat), 10 ∉ l → max ≤ n + l.length → n < max →
    scanLinesGo max cur n (l ++ t) = ([], true) := by
  intro l
  induction l with
  | nil => intro cur n _ h1 h2; simp at h1; omega
  | cons c l ih =>
    intro cur n h hl hn
    simp only [List.length_cons] at hl
    show scanLinesGo max cur n (c :: (l ++ t)) = _
    unfold scanLinesGo
    rw [if_neg (by intro hc; exact h (by simp [hc]))]
    split
    · rfl
    · exact ih (c :: cur) (n + 1) (by intro hm; exact h (by simp [hm])) (by omega) (by omega)

/-- Lines of fewer than 65536 bytes are all read, each without its newline and a carriage return before it. -/
theorem C41_lines (text : Bytes) (ls : List Bytes) (h : Lines text ls) (hl : ∀ l ∈ ls, l.length < 65536) :
    scanLines text = (ls.map dropCR, false) := by
  unfold scanLines
  induction h with
  | nil => rfl
  | last l hne hn =>
    have := scan_prefix (max := 65536) [] l [] 0 hn (by have := hl l (by simp); omega)
    rw [List.append_nil, List.append_nil] at this
    rw [this]
    have hlen : l.length ≠ 0 := by simpa using hne
    unfold scanLinesGo
    rw [if_neg (by omega)]
    simp
  | cons l t ls hn _ ih =>
    rw [scan_prefix (max := 65536) (10 :: t) l [] 0 hn (by have := hl l (by simp); omega)]
    unfold scanLinesGo
    rw [if_pos rfl, ih (fun l hm => hl l (by simp [hm]))]
    simp

example := C41_lines (b! "1\n2") _ (.cons (b! "1") (b! "2") _ (by decide) (.last _ (by decide) (by decide))) (by simp)

/-- A line of 65536 bytes or more ends the reading. -/
theorem C41_long_line (text : Bytes) (pre post : List Bytes) (l : Bytes) (h : Lines text (pre ++ l :: post))
    (hl : ∀ l ∈ pre, l.length < 65536) (hlong : 65536 ≤ l.length) : scanLines text = (pre.map dropCR, true) := by
  unfold scanLines
  induction pre generalizing text with
  | nil =>
    cases h with
    | last _ _ hn =>
      have := scan_long (max := 65536) [] l [] 0 hn (by omega) (by omega)
      rw [List.append_nil] at this
      rw [this]; rfl
    | cons _ t _ hn _ => rw [scan_long _ l [] 0 hn (by omega) (by omega)]; rfl
  | cons l' pre ih =>
    rw [List.cons_append] at h
    generalize hls : pre ++ l :: post = ls at h
    cases h with
    | last => simp at hls
    | cons _ t _ hn ht =>
      subst hls
      rw [scan_prefix (max := 65536) (10 :: t) l' [] 0 hn (by have := hl l' (by simp); omega)]
      unfold scanLinesGo
      rw [if_pos rfl, ih t ht (fun l hm => hl l (by simp [hm]))]
      simp

example (l : Bytes) (h : l.length = 65536) (hn : 10 ∉ l) := C41_long_line (b! "1\n" ++ l) [b! "1"] [] l
  (.cons (b! "1") l _ (by decide) (.last _ (by intro h'; simp [h'] at h) hn)) (by simp) (by omega)

/-- The full statement is false: the error for a line of 65536 bytes does not name it. -/
theorem C41_names_line_fails : ¬ NamesLineRule env oracles encodes := by
  intro h
  have hl : Lines (List.replicate 65536 32) [List.replicate 65536 32] :=
    .last _ (by rw [Ne, List.replicate_eq_nil_iff]; omega) (by rw [List.mem_replicate]; simp)
  have hs : lineSource (fun _ => none) (List.replicate 65536 32) = ⟨[], true⟩ := by
    unfold lineSource
    rw [C41_long_line _ [] [] _ hl (by simp) (by rw [List.length_replicate]; omega)]
    rfl
  obtain ⟨p, hp⟩ : ∃ p, Compile env (b! "$") = .ok p := ⟨_, rfl⟩
  have := h (fun _ => none) (b! "$") _ _ p [] .read hp hl (by
    rw [hs]
    unfold jpathMain
    rw [hp]
    rfl)
  cases this

private theorem lineItems_get (decode : Bytes → Option V) : ∀ (ls : List Bytes) (lno i : Nat) (it : Item),
    (lineItems decode lno ls)[i]? = some it → it.pos = lno + i ∧ ∃ l, ls[i]? = some l ∧ it.val = decode l
  | [], lno, i, it, h => by simp [lineItems] at h
  | l :: r, lno, 0, it, h => by
    simp only [lineItems, List.getElem?_cons_zero, Option.some.injEq] at h
    subst h
    exact ⟨rfl, l, rfl, rfl⟩
  | l :: r, lno, i + 1, it, h => by
    simp only [lineItems, List.getElem?_cons_succ] at h
    obtain ⟨h1, h2⟩ := lineItems_get decode r (lno + 1) i it h
    exact ⟨by omega, by simpa using h2⟩

/-- It holds when all lines have fewer than 65536 bytes. -/
theorem C41_names_line_partial (decode : Bytes → Option V) (expr text : Bytes) (ls : List Bytes) (p : JSONPath) (outs : List (List V)) (e : CmdErr)
    (hp : Compile env expr = .ok p) (hl : Lines text ls) (hlen : ∀ l ∈ ls, l.length < 65536)
    (h : jpathMain env oracles encodes expr [some (lineSource decode text)] = some (outs, some (.inputFailed 0 e))) :
    named e = some (outs.length + 1) := by
  obtain ⟨-, he⟩ := C41_one_list_per_value env oracles encodes expr p hp _ outs _ h
  have hs : lineSource decode text = ⟨lineItems decode 1 (ls.map dropCR), false⟩ := by
    unfold lineSource
    rw [C41_lines text ls hl hlen]
  have hev : events 0 [some (lineSource decode text)] = (lineItems decode 1 (ls.map dropCR)).map fun it => (0, Event.item it) := by
    rw [hs]; simp [events]
  rw [hev] at he
  have key : ∀ it f, ((lineItems decode 1 (ls.map dropCR)).map fun it => (0, Event.item it))[outs.length]? = some (f, .item it) →
      it.pos = outs.length + 1 := by
    intro it f hi
    rw [List.getElem?_map] at hi
    cases hg : (lineItems decode 1 (ls.map dropCR))[outs.length]? with
    | none => rw [hg] at hi; cases hi
    | some it' =>
      rw [hg] at hi
      cases hi
      have := (lineItems_get decode _ _ _ _ hg).1
      omega
  cases he with
  | decode _ it h1 h2 => simp [named, key it _ h1]
  | eval _ it root x h1 h2 h3 => simp [named, key it _ h1]
  | encode _ it root res h1 h2 h3 h4 => simp [named, key it _ h1]
  | read _ h1 =>
    rw [List.getElem?_map] at h1
    cases hg : (lineItems decode 1 (ls.map dropCR))[outs.length]? with
    | none => rw [hg] at h1; cases h1
    | some it' => rw [hg] at h1; cases h1

example : Lines (b! "1\n2") [b! "1", b! "2"] := .cons (b! "1") (b! "2") _ (by decide) (.last _ (by decide) (by decide))
example : jpathMain Ex.env (fun _ => Oracle.id) (fun _ => true) (b! "$") [some ⟨[⟨0, some .null⟩, ⟨5, none⟩], false⟩, none] =
    some ([[.null]], some (.inputFailed 0 (.decode 5))) := by
  have : ∀ o, Eval Ex.env o ⟨b! "$", ⟨[], []⟩⟩ .null = some (.ok (some [.null])) := fun o => run_of_runFuel 1 _ rfl
  unfold jpathMain
  rw [show Compile Ex.env (b! "$") = .ok ⟨b! "$", ⟨[], []⟩⟩ from rfl]
  simp only [cmdLoop, readItems, this]
  rfl

end JP
