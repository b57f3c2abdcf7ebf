import Verif.Model.CacheData

/-!
# Model of the blob uris of apps/tablet_cache/service/src/transaction/data.rs

The other modules leave the uri format a parameter (`DataEnv.uri`); here is the format of the code.  The base64 crate is not part of the
repository; `base64Url` is what its engine `URL_SAFE_NO_PAD` computes (RFC 4648, section 5, without padding).
-/

namespace TCP.Cache

open TCP TCP.TabletStore

/-- The url safe alphabet (RFC 4648, table 2). -/
def base64Alphabet : List Char := "ABCDEFGHIJKLMNOPQRSTUVWXYZabcdefghijklmnopqrstuvwxyz0123456789-_".toList

/-- The character for six bits. -/
def base64Char (n : Nat) : Char := base64Alphabet.getD n '='

/-- `URL_SAFE_NO_PAD.encode`: three bytes make four characters; the last one or two bytes make two or three. -/
def base64Url : Bytes → List Char
  | [] => []
  | [a] => [base64Char (a.toNat / 4), base64Char (a.toNat % 4 * 16)]
  | [a, b] => [base64Char (a.toNat / 4), base64Char (a.toNat % 4 * 16 + b.toNat / 16), base64Char (b.toNat % 16 * 4)]
  | a :: b :: c :: rest =>
    base64Char (a.toNat / 4) :: base64Char (a.toNat % 4 * 16 + b.toNat / 16) :: base64Char (b.toNat % 16 * 4 + c.toNat / 64) ::
      base64Char (c.toNat % 64) :: base64Url rest

/-- data.rs:152-161 `format_blob_uri`. -/
def formatBlobUri (id version : UInt32) (hash : Bytes) : String :=
  id.toNat.repr ++ "_" ++ version.toNat.repr ++ "_" ++ String.ofList (base64Url hash)

/-- The parameters of a data cache as the code fixes them; the serializer and the hash function stay parameters. -/
def codeEnv {α : Type} (ser : α → Option Bytes) (deser : Bytes → Option α) (hash : Bytes → Bytes) : DataEnv α :=
  ⟨ser, deser, hash, formatBlobUri⟩

end TCP.Cache
