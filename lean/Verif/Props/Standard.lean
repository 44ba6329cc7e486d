import Verif.Props.MacroGen
import Verif.Model.Destination

/-! # C64: the library's own macro scripts -/

namespace BCash
open Spec Macro Spec.Macro Spec.Named

/-- Spec: the declaration of `p2pkh_script`, scripts.rs:17-18. -/
def Spec.p2pkhDecl : Decl := ⟨"P2PKHInputs", [], [⟨"sig", none⟩, ⟨"pubkey", none⟩]⟩

/-- Spec: the body of `p2pkh_script`, scripts.rs:19-23, for an address with this hash. -/
def Spec.p2pkhBody (hash : Bytes) : List Leaf :=
  [opStmt .OP_DUP (some ["pubkey"]) none,
   opStmt .OP_HASH160 (some ["pubkey"]) (some ["pk_hashed"]),
   .push (.pushByteArray hash true) (some "pk_hash"),
   opStmt .OP_EQUALVERIFY (some ["pk_hashed", "pk_hash"]) none,
   opStmt .OP_CHECKSIG (some ["sig", "pubkey"]) (some ["success"])]

/-- Spec: the declaration of `p2sh_script`, scripts.rs:26-27. -/
def Spec.p2shDecl : Decl := ⟨"P2SHInputs", [], [⟨"redeem_script", none⟩]⟩

/-- Spec: the body of `p2sh_script`, scripts.rs:28-30. -/
def Spec.p2shBody (hash : Bytes) : List Leaf :=
  [opStmt .OP_HASH160 (some ["redeem_script"]) (some ["script_hashed"]),
   .push (.pushByteArray hash true) (some "script_hash"),
   opStmt .OP_EQUAL (some ["script_hashed", "script_hash"]) (some ["success"])]

/-- **C64** (P2PKH): the macro accepts the source of the P2PKH script and compiles it, for every address,
to the script the address converts to, leaving one item named `success`; the generated inputs push the
signature and then the public key, as the P2PKH signatory does. -/
theorem C64_p2pkh_source (order : List (String × VState) → List (String × VState))
    (horder : ∀ l, (order l).Perm l) (a : Address) (ha : a.addrType = .P2PKH) (s : P2PKHSignatory)
    (sig : Bytes) :
    (∃ e g, generate order p2pkhDecl (plain (p2pkhBody a.hash.1)) = .ok (e, g) ∧
      e.map Emit.op = a.toScript ∧
      g.states.map (fun st => st.2.stack.map (·.name)) = [["success"]]) ∧
    (inputNames p2pkhDecl "P2PKHInputs").map (fun name =>
      if name = "sig" then Op.pushByteArray (sig ++ [s.sigHashFlags.toUInt8]) true
      else .pushByteArray s.pubkey.1 true) = s.buildScript sig := by
  have hone : ∀ x, order [x] = [x] := fun x => List.perm_singleton.mp (horder [x])
  have hi : initialStates p2pkhDecl = .ok [("P2PKHInputs",
      ⟨[], [⟨"pubkey", false, none⟩, ⟨"sig", false, none⟩], []⟩)] := rfl
  refine ⟨?_, rfl⟩
  unfold generate
  rw [hi]
  dsimp only [Res.bind]
  rw [hone]
  refine ⟨_, _, rfl, ?_, rfl⟩
  simp only [Address.toScript, ha]
  rfl

/-- **C64** (checked P2PKH script): asking an address for its P2PKH script gives the script it converts to
if it is a P2PKH address, and an error otherwise. -/
theorem C64_p2pkh_checked (a : Address) :
    (a.addrType = .P2PKH → a.p2pkhScript? = .ok a.toScript) ∧
    (a.addrType = .P2SH → a.p2pkhScript? = .error .invalidAddressType) := by
  constructor
  · intro h; simp [Address.p2pkhScript?, Address.toScript, h]
  · intro h; simp [Address.p2pkhScript?, h]

/-- **C64** (P2SH): likewise for the P2SH script, whose only input is the redeem script. -/
theorem C64_p2sh_source (order : List (String × VState) → List (String × VState))
    (horder : ∀ l, (order l).Perm l) (a : Address) (ha : a.addrType = .P2SH) :
    (∃ e g, generate order p2shDecl (plain (p2shBody a.hash.1)) = .ok (e, g) ∧
      e.map Emit.op = a.toScript ∧
      g.states.map (fun st => st.2.stack.map (·.name)) = [["success"]]) ∧
    inputNames p2shDecl "P2SHInputs" = ["redeem_script"] := by
  have hone : ∀ x, order [x] = [x] := fun x => List.perm_singleton.mp (horder [x])
  have hi : initialStates p2shDecl = .ok [("P2SHInputs",
      ⟨[], [⟨"redeem_script", false, none⟩], []⟩)] := rfl
  refine ⟨?_, rfl⟩
  unfold generate
  rw [hi]
  dsimp only [Res.bind]
  rw [hone]
  refine ⟨_, _, rfl, ?_, rfl⟩
  simp only [Address.toScript, ha]
  rfl

/-- Non-vacuity: addresses of both types exist for every hash. -/
example (h : Hash160) : ∃ a b : Address, a.addrType = .P2PKH ∧ b.addrType = .P2SH ∧ a.hash = h ∧
    b.hash = h :=
  ⟨⟨.P2PKH, h, [], [], none⟩, ⟨.P2SH, h, [], [], none⟩, rfl, rfl, rfl, rfl⟩

end BCash
