import Verif.Model.CmdText
import Verif.Spec.CmdText
import Verif.Props.Cmd
import Verif.Proof.Quote
import Verif.Proof.ProgText
/-!
How jpath ends: C66.
-/
namespace JP
open Spec

variable (env : Env) (oracles : Nat → Oracle) (encodes : List V → Bool) (m : CmdMsgs) (byLine : Bool) (argv0 : Bytes)

private theorem run_ok {expr : Bytes} {p : JSONPath} (hp : Compile env expr = .ok p) {files : List Bytes} {inputs : List Input}
    {outs : List (List V)} {e : Ended} (h : jpathRun env oracles encodes m byLine argv0 (expr :: files) inputs = some (outs, e)) :
    ∃ ex, jpathMain env oracles encodes expr inputs = some (outs, some ex) ∧ e = ex.ended env m byLine argv0 files := by
  unfold jpathRun at h
  unfold jpathMain
  simp only [hp] at h ⊢
  cases hc : cmdLoop (fun k v => Eval env (oracles k) p v) encodes 0 0 inputs with
  | none => rw [hc] at h; cases h
  | some oe =>
    obtain ⟨outs', ex⟩ := oe
    rw [hc] at h
    simp only [Option.some.injEq, Prod.mk.injEq] at h
    obtain ⟨rfl, rfl⟩ := h
    exact ⟨ex, rfl, rfl⟩

/-! ### C66 How jpath ends -/

/-- With status 0 everything was done: the path was accepted, all inputs could be opened and read to the end, and
each of their values has a list of results. Then nothing is written to standard error; and otherwise something is. -/
theorem C66_success (expr : Bytes) (files : List Bytes) (inputs : List Input) (outs : List (List V)) (e : Ended)
    (h : jpathRun env oracles encodes m byLine argv0 (expr :: files) inputs = some (outs, e)) :
    (e.status = 0 → ∃ p, Compile env expr = .ok p ∧ outs.length = (events 0 inputs).length ∧
      ∀ (i : Nat) (f : Nat) (ev : Event), (events 0 inputs)[i]? = some (f, ev) → ∃ it root l, ev = .item it ∧ it.val = some root ∧
        Eval env (oracles i) p root = some (.ok (some l)) ∧ outs[i]? = some l) ∧
    (e.stderr = some [] ↔ e.status = 0) := by
  rcases C01_compile_total env expr with ⟨p, hp⟩ | ⟨x, hx⟩
  · obtain ⟨ex, hm, rfl⟩ := run_ok env oracles encodes m byLine argv0 hp h
    obtain ⟨hw, he⟩ := C41_one_list_per_value env oracles encodes expr p hp inputs outs ex hm
    refine ⟨fun hs => ⟨p, hp, ?_⟩, ?_⟩
    · cases ex with
      | ok =>
        cases he with
        | ok hl =>
          refine ⟨hl, fun i f ev hev => ?_⟩
          have hi : i < outs.length := by
            rw [List.getElem?_eq_some_iff] at hev; have := hev.1; omega
          obtain ⟨f', it, root, h1, h2, h3, h4⟩ := hw i outs[i] (List.getElem?_eq_getElem hi)
          rw [hev] at h1
          simp only [Option.some.injEq, Prod.mk.injEq] at h1
          exact ⟨it, root, outs[i], h1.2, h2, h3, List.getElem?_eq_getElem hi⟩
      | openFailed | inputFailed | crashed => cases hs
    · cases ex <;> simp [Exit.ended, errorf]
  · unfold jpathRun at h
    simp only [hx, Option.some.injEq, Prod.mk.injEq] at h
    obtain ⟨rfl, rfl⟩ := h
    exact ⟨fun hs => (by cases hs), by simp [errorf]⟩

example := C66_success Ex.env (fun _ => Oracle.id) (fun _ => true) ⟨fun _ => b! "EOF", fun _ => [], [], fun _ => b! "no such file"⟩ true (b! "jpath")
  (b! "$") [b! "f"] [none] _ _ rfl

/-- Without a path the status is 2, and 1 if it is rejected; then nothing is written to standard output, and the
message shows the path as a literal of Go, and the message of Compile's error. -/
theorem C66_rejected (inputs : List Input) (outs : List (List V)) (e : Ended) :
    (jpathRun env oracles encodes m byLine argv0 [] inputs = some (outs, e) → outs = [] ∧ e.status = 2) ∧
    ∀ expr files x, Compile env expr = .err x →
      jpathRun env oracles encodes m byLine argv0 (expr :: files) inputs = some (outs, e) → outs = [] ∧ e.status = 1 ∧
      ∃ lit, GoLiteral lit expr ∧ e.stderr = some (argv0 ++ b! ": path " ++ lit ++ b! ": " ++ x.text env ++ b! "\n") := by
  refine ⟨fun h => ?_, fun expr files x hx h => ?_⟩
  · simp only [jpathRun, Option.some.injEq, Prod.mk.injEq] at h
    obtain ⟨rfl, rfl⟩ := h
    exact ⟨rfl, rfl⟩
  · unfold jpathRun at h
    simp only [hx, Option.some.injEq, Prod.mk.injEq] at h
    obtain ⟨rfl, rfl⟩ := h
    refine ⟨rfl, rfl, _, quote_spec env expr, ?_⟩
    have : b! ": path " = b! ": " ++ b! "path " := rfl
    rw [this]
    simp only [errorf, List.append_assoc]

private theorem posText_chars (pos : Nat) : c! ':' ∉ posText byLine pos := by
  intro h
  have : ∀ c ∈ natToBytes pos, c ≠ c! ':' := by
    intro c hc he
    have := (natToBytes_chars (n := pos)).2 c hc
    rw [he] at this
    exact absurd this.2 (by decide)
  unfold posText at h
  split at h
  · exact this _ h rfl
  · rcases List.mem_cons.1 h with h | h
    · exact absurd h (by decide)
    · exact this _ h rfl

private theorem posText_inj {a b : Nat} (h : posText byLine a = posText byLine b) : a = b := by
  unfold posText at h
  cases byLine with
  | true => exact natToBytes_inj h
  | false => exact natToBytes_inj (List.cons.inj h).2

private theorem posText_read (pos : Nat) (x : Bytes) : posText byLine pos ++ x ≠ b! "read error: " ++ m.read := by
  intro h
  unfold posText at h
  cases byLine with
  | false => exact absurd (List.cons.inj h).1 (by decide)
  | true =>
    obtain ⟨hne, hc⟩ := natToBytes_chars (n := pos)
    simp only [if_true] at h
    cases ht : natToBytes pos with
    | nil => exact hne ht
    | cons a t =>
      rw [ht] at h hc
      have ha := hc a (by simp)
      have h0 : a = c! 'r' := (List.cons.inj h).1
      rw [h0] at ha
      exact absurd ha.2 (by decide)

private theorem text_split (e : CmdErr) : (∃ pos x, named e = some pos ∧ e.text env m byLine = posText byLine pos ++ c! ':' :: x) ∨
    (named e = none ∧ e.text env m byLine = b! "read error: " ++ m.read) := by
  cases e with
  | decode pos => exact .inl ⟨pos, b! " decoding JSON: " ++ m.decode pos, rfl, by simp [CmdErr.text]⟩
  | eval pos x => exact .inl ⟨pos, b! " evaluation error: " ++ x.text env, rfl, by simp [CmdErr.text]⟩
  | encode pos => exact .inl ⟨pos, b! " encoding results: " ++ m.encode pos, rfl, by simp [CmdErr.text]⟩
  | read => exact .inr ⟨rfl, rfl⟩

/-- The message identifies the input and the value: of the errors for one file, those with the same message name
the same value. -/
theorem C66_identifies (files : List Bytes) (f : Nat) (e e' : CmdErr)
    (h : (Exit.ended env m byLine argv0 files (.inputFailed f e)).stderr = (Exit.ended env m byLine argv0 files (.inputFailed f e')).stderr) :
    named e = named e' := by
  have ht : e.text env m byLine = e'.text env m byLine := by
    simp only [Exit.ended, errorf, Option.some.injEq] at h
    have h := List.append_cancel_left h
    have h := List.append_cancel_right h
    split at h
    · exact h
    · exact (List.cons.inj (List.append_cancel_left h)).2
  rcases text_split env m byLine e with ⟨pos, x, h1, h2⟩ | ⟨h1, h2⟩ <;> rcases text_split env m byLine e' with ⟨pos', x', h1', h2'⟩ | ⟨h1', h2'⟩
  · rw [h2, h2'] at ht
    obtain ⟨ht, -⟩ := split_at (posText_chars byLine pos) (posText_chars byLine pos') ht
    rw [h1, h1', posText_inj byLine ht]
  · rw [h2, h2'] at ht
    exact absurd ht (posText_read m byLine _ _)
  · rw [h2, h2'] at ht
    exact absurd ht.symm (posText_read m byLine _ _)
  · rw [h1, h1']

example := C66_identifies Ex.env ⟨fun _ => b! "EOF", fun _ => [], [], fun _ => b! "no such file"⟩ true (b! "jpath") [b! "f"] 0 (.decode 3) (.decode 3) rfl

/-- The message of an error starts with the names of the command and the file, and the position. -/
theorem C66_message (files : List Bytes) (f : Nat) (name : Bytes) (hf : files[f]? = some name) (e : CmdErr) (pos : Nat)
    (hn : named e = some pos) :
    ∃ rest, (Exit.ended env m byLine argv0 files (.inputFailed f e)).stderr =
      some (argv0 ++ b! ": " ++ name ++ b! ":" ++ (if byLine then [] else b! "#") ++ intToBytes pos ++ b! ": " ++ rest) := by
  have hne : files ≠ [] := by rintro rfl; simp at hf
  have hi : intToBytes (pos : Int) = natToBytes pos := by
    unfold intToBytes
    rw [if_neg (by omega)]
    rfl
  have hg : files.getD f [] = name := by rw [List.getD_eq_getElem?_getD, hf]; rfl
  simp only [Exit.ended, if_neg hne, hg, hi, errorf, Option.some.injEq]
  have hp : posText byLine pos = (if byLine then [] else b! "#") ++ natToBytes pos := by
    unfold posText; cases byLine <;> rfl
  cases e with
  | decode p =>
    cases hn
    exact ⟨b! "decoding JSON: " ++ m.decode pos ++ b! "\n", by simp [CmdErr.text, hp]⟩
  | eval p x =>
    cases hn
    exact ⟨b! "evaluation error: " ++ x.text env ++ b! "\n", by simp [CmdErr.text, hp]⟩
  | encode p =>
    cases hn
    exact ⟨b! "encoding results: " ++ m.encode pos ++ b! "\n", by simp [CmdErr.text, hp]⟩
  | read => cases hn

example := C66_message Ex.env ⟨fun _ => b! "EOF", fun _ => [], [], fun _ => b! "no such file"⟩ true (b! "jpath") [b! "f"] 0 (b! "f") rfl (.decode 3) 3 rfl

private theorem fromJson_desc {root v : V} (h : FromJson root) (hd : Desc root v) : FromJson v := by
  induction hd with
  | root => exact h
  | elem _ hm ih =>
    cases ih with
    | arr _ hx => exact hx _ hm
  | member _ hm ih =>
    cases ih with
    | obj _ hx => exact hx _ hm

/-- The values of JSON texts are selected from or null, and so the results can always be written as JSON. (For
programs of fewer than 2^22 orders.) -/
theorem C66_encodes_partial (expr : Bytes) (p : JSONPath) (hp : Compile env expr = .ok p) (hs : p.prog.orders.length < 2 ^ 22)
    (inputs : List Input) (hj : ∀ src ∈ inputs.filterMap id, ∀ it ∈ src.items, ∀ root, it.val = some root → FromJson root ∧ root.WF)
    (henc : ∀ l, (∀ v ∈ l, FromJson v) → encodes l = true) (outs : List (List V)) (f pos : Nat) :
    jpathMain env oracles encodes expr inputs ≠ some (outs, some (.inputFailed f (.encode pos))) := by
  intro h
  obtain ⟨-, he⟩ := C41_one_list_per_value env oracles encodes expr p hp inputs outs _ h
  cases he with
  | encode _ it root res h1 h2 h3 h4 =>
    have hmem : ∀ (inputs : List Input) (n i f : Nat) (it : Item), (events n inputs)[i]? = some (f, .item it) →
        ∃ src ∈ inputs.filterMap id, it ∈ src.items := by
      intro inputs
      induction inputs with
      | nil => intro n i f it h; simp [events] at h
      | cons inp r ih =>
        intro n i f it h
        have hm := List.mem_of_getElem? h
        cases inp with
        | none =>
          simp only [events, List.mem_cons, Prod.mk.injEq, reduceCtorEq, and_false, false_or] at hm
          obtain ⟨j, hj⟩ := List.getElem?_of_mem hm
          obtain ⟨src, h1, h2⟩ := ih (n + 1) j f it hj
          exact ⟨src, by simpa using h1, h2⟩
        | some src =>
          simp only [events, List.mem_append, List.mem_map, Prod.mk.injEq, Event.item.injEq] at hm
          rcases hm with ⟨it', h1, _, rfl⟩ | hm | hm
          · exact ⟨src, by simp, h1⟩
          · split at hm <;> simp at hm
          · obtain ⟨j, hj⟩ := List.getElem?_of_mem hm
            obtain ⟨src', h1, h2⟩ := ih (n + 1) j f it hj
            exact ⟨src', by simp only [List.mem_filterMap, id_eq, exists_eq_right] at h1 ⊢; exact List.mem_cons_of_mem _ h1, h2⟩
    obtain ⟨src, hs1, hs2⟩ := hmem inputs 0 _ f it h1
    obtain ⟨hfj, hwf⟩ := hj src hs1 it hs2 root h2
    obtain ⟨vs, rfl⟩ := C06_result_not_nil env _ p root res h3
    obtain ⟨path, hpath, -, -⟩ := Eval_eq (oracles 0) hp hs root
    have hfrom := C07_results_from_document_partial env _ expr p hp hs root hwf path hpath vs h3
    have : encodes vs = true := henc vs (by
      intro v hv
      rcases hfrom v hv with hd | ⟨-, rfl⟩
      · exact fromJson_desc hfj hd
      · exact .null)
    rw [show GoSlice.elems (some vs) = vs from rfl, this] at h4
    cases h4

example := C66_encodes_partial Ex.env (fun _ => Oracle.id) (fun _ => true) (b! "$..a") _ rfl (by decide)
  [some ⟨[⟨0, some (.arr [.null])⟩], false⟩] (by
    intro src hs it hi root hr
    simp at hs; subst hs
    simp at hi; subst hi
    cases hr
    exact ⟨.arr _ (by intro x hx; simp at hx; subst hx; exact .null), by simp [V.WF, WFs]⟩) (fun _ _ => rfl)

private def noMsgs : CmdMsgs := ⟨fun _ => b! "EOF", fun _ => [], [], fun _ => b! "no such file or directory"⟩

/-- The second line of the file is not JSON. -/
example : (jpathRun Ex.env (fun _ => Oracle.id) (fun _ => true) noMsgs true (b! "jpath") [b! "$", b! "f"] [some ⟨[⟨1, some .null⟩, ⟨2, none⟩], false⟩]) =
    some ([[.null]], ⟨some (b! "jpath: f:2: decoding JSON: EOF\n"), 1⟩) := by
  have : ∀ o, Eval Ex.env o ⟨b! "$", ⟨[], []⟩⟩ .null = some (.ok (some [.null])) := fun o => run_of_runFuel 1 _ rfl
  unfold jpathRun
  simp only [show Compile Ex.env (b! "$") = .ok ⟨b! "$", ⟨[], []⟩⟩ from rfl, cmdLoop, readItems, this]
  rfl

example : jpathRun Ex.env (fun _ => Oracle.id) (fun _ => true) noMsgs true (b! "jpath") [b! "$.a[0,#]"] [] =
    some ([], ⟨some (b! "jpath: path `$.a[0,#]`: unexpected character '#' at offset 6\n"), 1⟩) := rfl

example : FromJson (.arr [.null, .obj [(b! "a", .str (b! "b"))]]) := .arr _ (by
  intro x hx
  simp only [List.mem_cons, List.not_mem_nil, or_false] at hx
  rcases hx with rfl | rfl
  · exact .null
  · exact .obj _ (by rintro kv hkv; simp at hkv; subst hkv; exact .str _))

end JP
