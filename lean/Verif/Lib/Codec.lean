import Verif.Lib.Run

/-!
# Codec: concrete self-delimiting encodings

The models take message encodings as parameters with the law "decoding an encoding gives the message
back".  The encodings here exist only to show that this law can be met.
-/

namespace TCP

/-- A type with a self-delimiting encoding. -/
structure Codec (α : Type) where
  enc : α → Bytes
  dec : Bytes → Option (α × Bytes)
  law : ∀ a r, dec (enc a ++ r) = some (a, r)

namespace Codec

variable {α β : Type}

/-- Decode a whole message. -/
def decode (c : Codec α) (b : Bytes) : Option α := (c.dec b).map Prod.fst

theorem decode_enc (c : Codec α) (a : α) : c.decode (c.enc a) = some a := by
  have := c.law a []
  rw [List.append_nil] at this
  simp [decode, this]

def natGo (k : Nat) : Bytes → Option (Nat × Bytes)
  | [] => none
  | b :: r => if b = 0 then some (k, r) else natGo (k + 1) r

/-- A natural number in unary. -/
def nat : Codec Nat where
  enc n := List.replicate n 1 ++ [0]
  dec := natGo 0
  law := by
    have : ∀ n k r, natGo k (List.replicate n 1 ++ [0] ++ r) = some (k + n, r) := by
      intro n
      induction n with
      | zero => intro k r; simp [natGo]
      | succ n ih =>
        intro k r
        have := ih (k + 1) r
        simp only [List.replicate_succ, List.cons_append, natGo]
        simp only [List.append_assoc] at this
        simp only [List.append_assoc]
        rw [if_neg (by decide), this]
        congr 2; omega
    intro n r
    simpa using this n 0 r

def byte : Codec UInt8 where
  enc b := [b]
  dec
    | [] => none
    | b :: r => some (b, r)
  law _ _ := rfl

def pair (c : Codec α) (d : Codec β) : Codec (α × β) where
  enc x := c.enc x.1 ++ d.enc x.2
  dec b := (c.dec b).bind fun (x, r) => (d.dec r).map fun (y, r) => ((x, y), r)
  law := by
    intro ⟨a, b⟩ r
    simp [List.append_assoc, c.law, d.law]

/-- Transport along a retraction. -/
def map (c : Codec α) (f : α → β) (g : β → α) (h : ∀ b, f (g b) = b) : Codec β where
  enc b := c.enc (g b)
  dec b := (c.dec b).map fun (x, r) => (f x, r)
  law := by intro a r; simp [c.law, h]

def listGo (c : Codec α) : Nat → Bytes → Option (List α × Bytes)
  | 0, r => some ([], r)
  | n + 1, r => (c.dec r).bind fun (x, r) => (listGo c n r).map fun (l, r) => (x :: l, r)

def list (c : Codec α) : Codec (List α) where
  enc l := nat.enc l.length ++ l.flatMap c.enc
  dec b := (nat.dec b).bind fun (n, r) => listGo c n r
  law := by
    have : ∀ (l : List α) r, listGo c l.length (l.flatMap c.enc ++ r) = some (l, r) := by
      intro l
      induction l with
      | nil => intro r; simp [listGo]
      | cons a l ih => intro r; simp [listGo, List.append_assoc, c.law, ih]
    intro l r
    rw [List.append_assoc, nat.law]
    exact this l r

def sum (c : Codec α) (d : Codec β) : Codec (α ⊕ β) where
  enc
    | .inl a => 0 :: c.enc a
    | .inr b => 1 :: d.enc b
  dec
    | [] => none
    | t :: r => if t = 0 then (c.dec r).map fun (x, r) => (.inl x, r) else (d.dec r).map fun (x, r) => (.inr x, r)
  law := by
    intro x r
    cases x with
    | inl a => simp [c.law]
    | inr b =>
      simp only [List.cons_append]
      rw [if_neg (by decide)]
      simp [d.law]

def unit : Codec Unit where
  enc _ := []
  dec b := some ((), b)
  law _ _ := rfl

def option (c : Codec α) : Codec (Option α) :=
  (sum unit c).map (fun | .inl _ => none | .inr a => some a) (fun | none => .inl () | some a => .inr a)
    (by intro b; cases b <;> rfl)

def bool : Codec Bool :=
  (sum unit unit).map (fun | .inl _ => false | .inr _ => true) (fun | false => .inl () | true => .inr ())
    (by intro b; cases b <;> rfl)

def int : Codec Int :=
  (sum nat nat).map (fun | .inl n => Int.ofNat n | .inr n => Int.negSucc n)
    (fun | .ofNat n => .inl n | .negSucc n => .inr n) (by intro b; cases b <;> rfl)

def bytes : Codec Bytes := list byte

def char : Codec Char := nat.map Char.ofNat Char.toNat Char.ofNat_toNat

def string : Codec String := (list char).map String.ofList String.toList (fun _ => String.ofList_toList)

end Codec
end TCP
