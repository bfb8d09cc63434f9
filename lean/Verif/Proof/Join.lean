import Verif.Proof.Written
/-!
Texts made of shorter texts, and what the beginning of a text says about its tokens.
-/
namespace JP
open Spec

variable {env : Env} {pf : Bytes → Option F64}

/-- A byte that never belongs to the token before it. -/
def Neutral (c : UInt8) : Prop := ¬ LetterDigitDash c ∧ c ∉ b! ".&|=~"

theorem Neutral.stops {c : UInt8} (h : Neutral c) {p : UInt8 → Prop} (hp : ∀ d, p d → LetterDigitDash d ∨ d ∈ b! ".&|=~") (next : Bytes) :
    Spec.Stops p (c :: next) := by
  intro d hd hc
  simp at hd
  subst hd
  rcases hp _ hc with h1 | h1
  · exact h.1 h1
  · exact h.2 h1

theorem Spec.Digit.ldd {c : UInt8} (h : Digit c) : LetterDigitDash c := .inr (.inl h)
theorem Spec.LetterDigit.ldd {c : UInt8} (h : LetterDigit c) : LetterDigitDash c := by
  rcases h with h | h
  · exact .inl h
  · exact .inr (.inl h)
theorem expo_letter {c : UInt8} (h : c = c! 'e' ∨ c = c! 'E') : Letter c := by
  rcases h with rfl | rfl <;> simp [Letter] <;> decide

theorem Spec.PathWord.neutral {lx : Lexeme} {w next : Bytes} (h : PathWord lx w next) {c : UInt8} (hc : Neutral c) (next' : Bytes) :
    PathWord lx w (c :: next') := by
  cases h with
  | punct c _ h => exact .punct c _ h
  | dot _ h => exact .dot _ (hc.stops (by rintro d rfl; right; decide) _)
  | nest => exact .nest _
  | filter => exact .filter _
  | str w v _ h => exact .str w v _ h
  | int _ _ h1 h2 h3 => exact .int _ _ h1 (hc.stops (fun _ h => .inl h.ldd) _) h3
  | neg w ds _ h1 h2 h3 h4 => exact .neg w ds _ h1 h2 (hc.stops (fun _ h => .inl h.ldd) _) h4
  | name c w _ h1 h2 h3 => exact .name c w _ h1 h2 (hc.stops (fun _ h => .inl h) _)

theorem Spec.RealText.neutral {w next : Bytes} (h : RealText w next) {c : UInt8} (hc : Neutral c) (next' : Bytes) :
    RealText w (c :: next') := by
  cases h with
  | mk ds fs ex _ a1 a2 a3 a4 a5 =>
    exact .mk ds fs ex _ a1 a2 a3 (hc.stops (fun _ h => .inl h.ldd) _) (fun _ => hc.stops (fun _ h => .inl (.inl (expo_letter h))) _)

theorem Spec.ExprWord.neutral {lx : Lexeme} {w next : Bytes} (h : ExprWord pf lx w next) {c : UInt8} (hc : Neutral c) (next' : Bytes) :
    ExprWord pf lx w (c :: next') := by
  cases h with
  | punct c _ h => exact .punct c _ h
  | alone c d _ h1 h2 =>
    refine .alone c d _ h1 (hc.stops (fun e he => .inr ?_) _)
    rcases h1 with ⟨_, rfl⟩ | ⟨_, rfl⟩ | ⟨_, rfl⟩ | ⟨_, rfl⟩ | ⟨_, rfl⟩ | ⟨_, rfl⟩ <;> revert e <;> decide
  | str w v _ h => exact .str w v _ h
  | int _ _ h1 h2 h3 =>
    refine .int _ _ h1 (hc.stops ?_ _) h3
    rintro d (h | rfl)
    · exact .inl h.ldd
    · right; decide
  | real _ f _ h1 h2 => exact .real _ f _ (h1.neutral hc _) h2
  | name c w _ h1 h2 h3 => exact .name c w _ h1 h2 (hc.stops (fun _ h => .inl h.ldd) _)
  | _ => constructor

theorem Spec.Word.neutral {t : Token} {w next : Bytes} (h : Word pf t w next) {c : UInt8} (hc : Neutral c) (next' : Bytes) :
    Word pf t w (c :: next') := by
  cases h with
  | path lx w _ h => exact .path lx w _ (h.neutral hc _)
  | expr lx w _ h => exact .expr lx w _ (h.neutral hc _)
  | regexp t v _ h => exact .regexp t v _ h

/-- The text of a regular expression. -/
def Spec.Token.isRe : Token → Bool
  | .regexp _ => true
  | _ => false

/-- The tokens do not begin inside a regular expression. -/
def Outside (ts : List Token) : Prop := ∀ t, ts.head? = some t → t.isRe = false

theorem Spec.White.append {a b : Bytes} (ha : White a) (hb : White b) : White (a ++ b) := by
  intro c hc
  rcases List.mem_append.mp hc with h | h
  · exact ha c h
  · exact hb c h

theorem Spec.Written.gap {us : List Token} {x g : Bytes} (h : Written pf us x) (hg : White g) (ho : Outside us) : Written pf us (g ++ x) := by
  cases h with
  | nil x hx => exact .nil _ (hg.append hx)
  | cons t ts g' w next h1 h2 h3 =>
    rw [← List.append_assoc]
    refine .cons t ts _ w next ?_ h2 h3
    have := ho t rfl
    cases t with
    | path lx => exact hg.append h1
    | expr lx => exact hg.append h1
    | regexp s => cases this

/-- Texts joined at a byte that ends the token before it. -/
theorem Spec.Written.join {ts us : List Token} {a b : Bytes} {c : UInt8} (h1 : Written pf ts a) (h2 : Written pf us (c :: b))
    (hc : Neutral c) (ho : Outside us) : Written pf (ts ++ us) (a ++ c :: b) := by
  induction h1 with
  | nil g hg => exact h2.gap hg ho
  | cons t ts g w next hg hw _ ih =>
    rw [List.append_assoc, List.append_assoc]
    refine .cons t _ g w _ hg ?_ ih
    cases next with
    | nil => exact hw.neutral hc _
    | cons d next => exact hw.congr rfl

theorem neutral_space {c : UInt8} (h : Space c) : Neutral c := by
  rcases h with rfl | rfl | rfl | rfl | rfl | rfl <;> exact ⟨by simp [LetterDigitDash, Letter, Digit]; try decide, by decide⟩

theorem neutral_of {c : UInt8} (h : c ∈ b! " ()[]*,:?+/%<>@$!'\"") : Neutral c := by
  simp at h
  rcases h with rfl | rfl | rfl | rfl | rfl | rfl | rfl | rfl | rfl | rfl | rfl | rfl | rfl | rfl | rfl | rfl | rfl | rfl | rfl <;>
    exact ⟨by simp [LetterDigitDash, Letter, Digit]; try decide, by decide⟩

/-! ## Reading a text from its beginning -/

theorem Spec.Written.reads {t : Token} {ts : List Token} {text : Bytes} (h : Written env.parseFloat (t :: ts) text) (b : Bytes) :
    ∃ r, Reads env t ⟨b, text⟩ r ∧ Written env.parseFloat ts r.rest := by
  cases h with
  | cons _ _ g w next hg hw hn => exact ⟨_, hw.reads hg b, hn⟩

/-- A text that begins with a token of a path. -/
theorem Spec.Written.path_inv {lx lx' : Lexeme} {ts : List Token} {g w next : Bytes}
    (h : Written env.parseFloat (.path lx :: ts) (g ++ (w ++ next))) (hg : White g) (hw : PathWord lx' w next) :
    lx = lx' ∧ Written env.parseFloat ts next := by
  obtain ⟨r, h1, h2⟩ := h.reads []
  cases h1 with
  | path h1 =>
    rw [lexPath_of hw hg] at h1
    cases h1
    exact ⟨rfl, h2⟩

/-- A text that begins with a token of an expression. -/
theorem Spec.Written.expr_inv {lx lx' : Lexeme} {ts : List Token} {g w next : Bytes}
    (h : Written env.parseFloat (.expr lx :: ts) (g ++ (w ++ next))) (hg : White g) (hw : ExprWord env.parseFloat lx' w next) :
    lx = lx' ∧ Written env.parseFloat ts next := by
  obtain ⟨r, h1, h2⟩ := h.reads []
  cases h1 with
  | expr h1 =>
    rw [lexExpr_of hw hg] at h1
    cases h1
    exact ⟨rfl, h2⟩

theorem Spec.Written.nil_inv {text : Bytes} (h : Written pf [] text) : White text := by
  cases h; assumption

theorem Spec.Written.white_inv {ts : List Token} {text : Bytes} (h : Written env.parseFloat ts text) (hw : White text) : ts = [] := by
  cases ts with
  | nil => rfl
  | cons t ts =>
    exfalso
    cases h with
    | cons _ _ g w next hg hwd hn =>
      cases hwd with
      | path lx w next h1 =>
        obtain ⟨r, h2⟩ := lexPath_eof (env := env) (b := []) |>.mpr hw
        rw [lexPath_of h1 hg] at h2
        cases h2
        exact h1.ok.2 rfl
      | expr lx w next h1 =>
        obtain ⟨r, h2⟩ := lexExpr_eof (env := env) (b := []) |>.mpr hw
        rw [lexExpr_of h1 hg] at h2
        cases h2
        exact h1.ok.2 rfl
      | regexp t v next h1 =>
        have : Space (c! '/') := hw _ (by simp)
        simp [Space] at this

end JP
