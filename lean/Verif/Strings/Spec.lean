import Verif.Strings.Model
/-! # String literals and histories of string pools (specification for C18-C21, C50) -/
namespace Ulam.Strings.Spec
open Ulam.Strings

/-- A request to the compiler's pool: a string, or a number to be written in decimal. -/
inductive Req
  | str (s : Bytes)
  | num (n : Nat)
  deriving DecidableEq

/-- The string a request is for. -/
def text : Req → Bytes
  | .str s => s
  | .num n => (toString n).toList.map Char.toNat

/-- One request to the pool. -/
def ask (p : Pool) : Req → Option (Nat × Pool)
  | .str s => getIndex p s
  | .num n => getIndexNum p n

/-- A history of requests: the indexes given out and the pool afterwards. -/
def run (p : Pool) : List Req → Option (List Nat × Pool)
  | [] => some ([], p)
  | r :: rs =>
    match ask p r with
    | none => none
    | some (k, p') => (run p' rs).map fun x => (k :: x.1, x.2)

/-- A history of user strings met by the lexer: each is put in stored form and looked up. -/
def uRun (p : UPool) : List Bytes → Option (List Nat × UPool)
  | [] => some ([], p)
  | s :: ss =>
    match formatUser s with
    | none => none
    | some d => (uRun (uGetIndex p d).2 ss).map fun x => ((uGetIndex p d).1 :: x.1, x.2)

/-- Reading a list of decimal numbers separated by commas. -/
def readNums (cur : Nat) : Bytes → List Nat
  | [] => [cur]
  | c :: r => if c = 44 then cur :: readNums 0 r else readNums (cur * 10 + (c - 48)) r

/-- The bytes of a user string in memory: length, characters, zero. -/
def image (s : Bytes) : Bytes := s.length :: (s ++ [0])

/-- Strings the language allows: at most 255 bytes. -/
def Valid (s : Bytes) : Prop := s.length ≤ 255 ∧ ∀ c ∈ s, c < 256

def isOct (c : Nat) : Bool := decide (48 ≤ c ∧ c ≤ 55)

/-- C++ simple escapes. -/
def cSimple (d : Nat) : Option Nat :=
  if d = 34 then some 34 else if d = 39 then some 39 else if d = 63 then some 63 else if d = 92 then some 92
  else if d = 97 then some 7 else if d = 98 then some 8 else if d = 102 then some 12 else if d = 110 then some 10
  else if d = 114 then some 13 else if d = 116 then some 9 else if d = 118 then some 11 else none

/-- Reading a C++ ordinary string literal after its opening quote: the bytes denoted and the text after the closing quote.
Printable ASCII characters stand for themselves, a backslash starts a simple escape or an octal escape of one to three
digits. Texts that depend on the compiler (bytes outside ASCII, two question marks in a row, which older C++ may read as a
trigraph) and hexadecimal escapes are not accepted. -/
def cBody : Bytes → Option (Bytes × Bytes)
  | [] => none
  | c :: r =>
    if c = 34 then some ([], r)
    else if c = 92 then
      match r with
      | [] => none
      | d :: r1 =>
        if isOct d then
          match r1 with
          | [] => none
          | e :: r2 =>
            if isOct e then
              match r2 with
              | [] => none
              | f :: r3 =>
                if isOct f then
                  let v := (d - 48) * 64 + (e - 48) * 8 + (f - 48)
                  if v ≤ 255 then (cBody r3).map fun x => (v :: x.1, x.2) else none
                else (cBody (f :: r3)).map fun x => (((d - 48) * 8 + (e - 48)) :: x.1, x.2)
            else (cBody (e :: r2)).map fun x => ((d - 48) :: x.1, x.2)
        else match cSimple d with
          | some v => (cBody r1).map fun x => (v :: x.1, x.2)
          | none => none
    else if 32 ≤ c ∧ c ≤ 126 ∧ ¬ (c = 63 ∧ r.head? = some 63) then (cBody r).map fun x => (c :: x.1, x.2)
    else none
termination_by s => s.length

theorem cBody_len : ∀ (n : Nat) (s r b : Bytes), s.length ≤ n → cBody s = some (b, r) → r.length < s.length := by
  intro n
  induction n with
  | zero => intro s r b hn h; cases s <;> simp_all [cBody]
  | succ n ih =>
    intro s r b hn h
    have aux : ∀ (t : Bytes) (v : Nat), t.length ≤ n → (cBody t).map (fun x => (v :: x.1, x.2)) = some (b, r) →
        r.length < t.length := by
      intro t v ht hm
      rw [Option.map_eq_some_iff] at hm
      obtain ⟨⟨b', r'⟩, h1, h2⟩ := hm
      simp only [Prod.mk.injEq] at h2
      rw [← h2.2]
      exact ih t r' b' ht h1
    cases s with
    | nil => simp [cBody] at h
    | cons c s =>
      simp only [List.length_cons] at hn ⊢
      rw [cBody.eq_def] at h
      simp only at h
      split at h
      · simp only [Option.some.injEq, Prod.mk.injEq] at h; rw [← h.2]; omega
      · split at h
        · split at h
          · cases h
          · split at h
            · split at h
              · cases h
              · split at h
                · split at h
                  · cases h
                  · split at h
                    · split at h
                      · have := aux _ _ (by simp at hn; omega) h; simp only [List.length_cons]; omega
                      · cases h
                    · have := aux _ _ (by simp at hn ⊢; omega) h; simp only [List.length_cons] at this ⊢; omega
                · have := aux _ _ (by simp at hn ⊢; omega) h; simp only [List.length_cons] at this ⊢; omega
            · split at h
              · have := aux _ _ (by simp at hn; omega) h; simp only [List.length_cons]; omega
              · cases h
        · split at h
          · have := aux _ _ (by omega) h; omega
          · cases h

/-- An initializer: string literals separated by white space up to a semicolon; adjacent literals are joined. -/
def cInit (s : Bytes) : Option Bytes :=
  match s with
  | [] => none
  | c :: r =>
    if c = 59 then some []
    else if c = 32 ∨ c = 10 then cInit r
    else if c = 34 then
      match h : cBody r with
      | none => none
      | some (b, r') => (cInit r').map (b ++ ·)
    else none
termination_by s.length
decreasing_by
  · simp
  · have := cBody_len _ _ _ _ (Nat.le_refl _) h
    simp only [List.length_cons]; omega

/-- Escapes of the language by name. -/
def named : List (Nat × Nat) :=
  [(97, 7), (98, 8), (116, 9), (110, 10), (118, 11), (102, 12), (114, 13), (34, 34), (39, 39), (92, 92)]

/-- Value of a hexadecimal digit. -/
def hexVal (c : Nat) : Option Nat :=
  if 48 ≤ c ∧ c ≤ 57 then some (c - 48) else if 65 ≤ c ∧ c ≤ 70 then some (c - 55)
  else if 97 ≤ c ∧ c ≤ 102 then some (c - 87) else none

/-- The ways to write one byte `b` in a quoted literal, given the character after it: the character itself, a named
escape, one to three octal digits, one or two hexadecimal digits (the longest such run is taken, and it must not be the
end of the file), or a backslash before any other character. -/
inductive Item : Bytes → Option Nat → Nat → Prop
  | raw {c n} : c ≠ 92 → Item [c] n c
  | named {d v n} : (d, v) ∈ named → Item [92, d] n v
  | oct1 {a n} : isOct a → (isOct n = false) → Item [92, a] (some n) (a - 48)
  | oct2 {a b n} : isOct a → isOct b → (isOct n = false) → Item [92, a, b] (some n) ((a - 48) * 8 + (b - 48))
  | oct3 {a b c n} : isOct a → isOct b → isOct c → (a - 48) * 64 + (b - 48) * 8 + (c - 48) ≤ 255 →
      Item [92, a, b, c] n ((a - 48) * 64 + (b - 48) * 8 + (c - 48))
  | hex1 {x a v n} : x = 120 ∨ x = 88 → hexVal a = some v → hexVal n = none → Item [92, x, a] (some n) v
  | hex2 {x a b v w n} : x = 120 ∨ x = 88 → hexVal a = some v → hexVal b = some w → Item [92, x, a, b] n (v * 16 + w)
  | other {d n} : isOct d = false → d ≠ 120 → d ≠ 88 → (∀ v, (d, v) ∉ named) → Item [92, d] n d

/-- `Denotes q t bs`: the text `t` of a literal closed by the quote `q` stands for the bytes `bs`. -/
inductive Denotes (q : Nat) : Bytes → Bytes → Prop
  | nil : Denotes q [] []
  | cons {i t b bs} : Item i ((t ++ [q]).head?) b → i.head? ≠ some q → Denotes q t bs → Denotes q (i ++ t) (b :: bs)

/-- Bytes shown as octal escapes of fewer than three digits. -/
def ShortOctal (c : Nat) : Prop := c < 7 ∨ (14 ≤ c ∧ c < 32)

/-- Strings whose shown text can be read back: no double quote, and no short octal escape before an octal digit. -/
def Clean (s : Bytes) : Prop :=
  34 ∉ s ∧ ∀ pre a b post, s = pre ++ a :: b :: post → ShortOctal a → isOct b = false

end Ulam.Strings.Spec
