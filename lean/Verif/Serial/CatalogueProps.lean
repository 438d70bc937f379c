import Verif.Serial.CatalogueLemmas

/-! Property C117: every message of the system is read back as it was written. -/
namespace Verif.Serial.Cat

open Codec

/-- **C117.** For every message of the catalogue, `operator>>` applied to what `operator<<` wrote gives the
message back, field by field, and leaves the cursor exactly behind it, whatever follows. -/
theorem C117_roundtrip (x : (α : Type) × Codec α) (hx : x ∈ catalogue) (m : x.1)
    (hm : x.2.valid m) (rest : Bytes) : x.2.read (x.2.write m ++ rest) = .ok m rest :=
  catalogue_law x hx m rest hm

/-- C117: two different messages of a type never share their bytes, even when something follows. -/
theorem C117_injective (x : (α : Type) × Codec α) (hx : x ∈ catalogue) (m m' : x.1)
    (hm : x.2.valid m) (hm' : x.2.valid m') (r r' : Bytes)
    (h : x.2.write m ++ r = x.2.write m' ++ r') : m = m' ∧ r = r' := by
  have h1 := catalogue_law x hx m r hm
  rw [h, catalogue_law x hx m' r' hm'] at h1
  injection h1 with h1 h2
  exact ⟨h1.symm, h2.symm⟩

/-- C117: any number of messages written one behind the other are read back one behind the other. -/
theorem C117_stream (x : (α : Type) × Codec α) (hx : x ∈ catalogue) (ms : List x.1)
    (hm : ∀ m ∈ ms, x.2.valid m) (rest : Bytes) :
    decN x.2.read ms.length (ms.flatMap x.2.write ++ rest) = .ok ms rest :=
  decN_append x.2.read x.2.write ms rest fun m h r => catalogue_law x hx m r (hm m h)

/-- C117: the envelopes of the remote calls keep any payload that is read back as it was written. -/
theorem C117_envelope {α : Type} (c : Codec α)
    (h : ∀ m rest, c.valid m → c.read (c.write m ++ rest) = .ok m rest) (rest : Bytes) :
    (∀ m, (rpcRequest c).valid m → (rpcRequest c).read ((rpcRequest c).write m ++ rest) = .ok m rest) ∧
    ∀ m, (rpcResponse c).valid m →
      (rpcResponse c).read ((rpcResponse c).write m ++ rest) = .ok m rest :=
  ⟨fun m hm => rpcRequest_law h m rest hm, fun m hm => rpcResponse_law h m rest hm⟩

/-- C117, the one message that does not carry all of its fields: an account arrives with its balance and
its nonce, not modified and not marked for destruction, whatever it was. -/
theorem C117_account (a : Account) (hb : a.balance.length = 32) (hn : a.nonce.length = 32)
    (rest : Bytes) :
    account.read (account.write a ++ rest) = .ok ⟨a.balance, a.nonce, [], false⟩ rest :=
  account_law ⟨a.balance, a.nonce, [], false⟩ rest ⟨hb, hn, rfl, rfl⟩

section Example

/-- The catalogue is not empty, and its messages have values. -/
example : (⟨_, receipt⟩ : (α : Type) × Codec α) ∈ catalogue := by
  simp only [catalogue, List.mem_cons, true_or, or_true]

def exHash (n : UInt8) : Bytes := List.replicate 32 n
def exEvm : EvmTx := ⟨2, some (List.replicate 20 1), exHash 1, exHash 2, exHash 3, exHash 4, exHash 5,
  exHash 6, [9, 8], [⟨List.replicate 20 2, [exHash 7]⟩], ⟨exHash 8, exHash 9, exHash 10⟩⟩
def exReceipt : Receipt := ⟨exEvm, none, exHash 1, [⟨List.replicate 20 3, [1], [exHash 2]⟩], [], 77,
  1000, true⟩

example : receipt.valid exReceipt := by
  simp [receipt, evmTx, log, sig, accessTuple, vec, opt, bytes, u8, u64, int, flag, exReceipt, exEvm,
    exHash]

/-- A different order of the fields would be seen: the bytes of a signature begin with `v`. -/
example : (sig.write ⟨exHash 8, exHash 9, exHash 10⟩).take 32 = exHash 8 := by decide

/-- The hypotheses of `C117_account` hold for accounts that lose something. -/
example : account.read (account.write ⟨exHash 1, exHash 2, [exHash 3], true⟩) =
    .ok ⟨exHash 1, exHash 2, [], false⟩ [] :=
  C117_account ⟨exHash 1, exHash 2, [exHash 3], true⟩ rfl rfl []

end Example

end Verif.Serial.Cat
