import Verif.Proofs.Raw

/-! # C92: transactions from elsewhere -/

namespace BCash
open Spec RawProofs

/-- **C92** (what is accepted and read): reading a transaction from bytes succeeds exactly for the encodings of raw
transactions, every size in any form, every script a sequence of tokens; what is read are the fields of that raw
transaction, and what is left is what follows it. -/
theorem C92_accepted (sz : Layout) (data rest : Bytes) (t : UnhashedTx) :
    (Codec.unhashedTx sz).deserRest data = .ok (t, rest) ↔
      ∃ r : RawTx, r.Valid sz ∧ data = r.encode ++ rest ∧ TxReads r t := by
  constructor
  · intro h
    obtain ⟨r, v, e, m⟩ := (Exact.unhashedTx sz).inv _ _ _ h
    exact ⟨r, v, e, (txReads_iff r t).mpr m.symm⟩
  · rintro ⟨r, v, rfl, m⟩
    rw [(txReads_iff r t).mp m]
    exact (Exact.unhashedTx sz).read r rest v

/-- **C92** (one reading): the bytes determine the raw transaction's canonicity and what is read: a raw transaction
reads as exactly one transaction, and bytes have at most one reading. -/
theorem C92_unique (sz : Layout) (r r' : RawTx) (rest rest' : Bytes) (h : r.Valid sz) (h' : r'.Valid sz)
    (he : r.encode ++ rest = r'.encode ++ rest') :
    rest = rest' ∧ (∀ t t', TxReads r t → TxReads r' t' → t = t') ∧ (r.Canonical ↔ r'.Canonical) := by
  have e1 := (Exact.unhashedTx sz).read r rest h
  have e2 := (Exact.unhashedTx sz).read r' rest' h'
  rw [he, e2] at e1
  simp only [Res.ok.injEq, Prod.mk.injEq] at e1
  have hm : txMean r = txMean r' := e1.1.symm
  have hr : rest = rest' := e1.2.symm
  subst hr
  have henc := List.append_cancel_right he
  obtain ⟨bs, s1, c1, n1⟩ := (Exact.unhashedTx sz).ser r h
  obtain ⟨bs', s2, c2, n2⟩ := (Exact.unhashedTx sz).ser r' h'
  rw [hm, s2] at s1
  cases s1
  refine ⟨rfl, fun t t' ht ht' => by rw [(txReads_iff r t).mp ht, (txReads_iff r' t').mp ht', hm], ?_⟩
  constructor
  · intro hc
    by_contra hn
    have := n2 hn
    rw [c1 hc, henc] at this
    exact Nat.lt_irrefl _ this
  · intro hc
    by_contra hn
    have := n1 hn
    rw [c2 hc, henc] at this
    exact Nat.lt_irrefl _ this

/-- **C92** (reading and writing), on the exact set where it holds: a transaction read from bytes can be written; it
is written as the bytes it was read from exactly if all sizes were in their shortest form and all pushes had the
shortest length prefix (or were the two-byte empty push), and otherwise as fewer bytes. -/
theorem C92_rewrite_partial (sz : Layout) (r : RawTx) (h : r.Valid sz) (t : UnhashedTx) (ht : TxReads r t) :
    ∃ bs, (Codec.unhashedTx sz).ser t = some bs ∧ (bs = r.encode ↔ r.Canonical) ∧
      (bs.length = r.encode.length ↔ r.Canonical) ∧ bs.length ≤ r.encode.length := by
  obtain ⟨bs, s1, c1, n1⟩ := (Exact.unhashedTx sz).ser r h
  rw [← (txReads_iff r t).mp ht] at s1
  refine ⟨bs, s1, ⟨?_, c1⟩, ⟨?_, fun hc => by rw [c1 hc]⟩, ?_⟩
  · intro he
    by_contra hn
    have := n1 hn
    rw [he] at this
    exact Nat.lt_irrefl _ this
  · intro he
    by_contra hn
    have := n1 hn
    omega
  · by_cases hc : r.Canonical
    · rw [c1 hc]; exact Nat.le_refl _
    · exact Nat.le_of_lt (n1 hc)

/-- **C92** (transaction ids): the id the library computes for a transaction read from bytes is the hash of these
bytes if all sizes and pushes were in shortest form. -/
theorem C92_txid_partial (sz : Layout) (sha256d : Bytes → Hash256) (r : RawTx) (h : r.Valid sz) (hc : r.Canonical)
    (t : UnhashedTx) (hd : (Codec.unhashedTx sz).deser r.encode = .ok t) :
    ∃ tx, t.hashed sz sha256d = some tx ∧ tx.hash = sha256d r.encode ∧ tx.raw = r.encode := by
  have hd' : (Codec.unhashedTx sz).deserRest r.encode = .ok (t, []) :=
    (C15_whole_buffer (.unhashedTx sz) r.encode t).1.mp hd
  have e := (Exact.unhashedTx sz).read r [] h
  rw [List.append_nil, hd'] at e
  simp only [Res.ok.injEq, Prod.mk.injEq, and_true] at e
  obtain ⟨bs, s1, c1, n1⟩ := (Exact.unhashedTx sz).ser r h
  rw [← e] at s1
  exact ⟨⟨t, sha256d bs, bs⟩, by simp [UnhashedTx.hashed, s1], by rw [c1 hc], c1 hc⟩

/-- A transaction without inputs whose output pushes one byte with `OP_PUSHDATA1`. -/
def Spec.longPushTx : RawTx := ⟨1, .one, [], .one, [⟨7, ⟨.one, [.push .pushdata1 [0x2a]]⟩⟩], 0⟩

/-- **C92** fails for the ids of other transactions: the library reads the transaction but computes the hash of
different bytes, so with any hash function that tells the two apart the id is wrong. -/
theorem C92_txid_fails : ∃ (bs bs' : Bytes) (t : UnhashedTx), bs ≠ bs' ∧
    (Codec.unhashedTx ⟨200, 40⟩).deser bs = .ok t ∧
    ∀ sha256d : Bytes → Hash256, sha256d bs ≠ sha256d bs' →
      ∃ tx, t.hashed ⟨200, 40⟩ sha256d = some tx ∧ tx.hash = sha256d bs' ∧ tx.hash ≠ sha256d bs := by
  refine ⟨longPushTx.encode, [1, 0, 0, 0, 0, 1, 7, 0, 0, 0, 0, 0, 0, 0, 2, 1, 0x2a, 0, 0, 0, 0],
    ⟨1, [], [⟨7, [.pushByteArray [0x2a] false]⟩], 0⟩, by decide, by decide +kernel, fun H hH => ?_⟩
  have : (Codec.unhashedTx ⟨200, 40⟩).ser ⟨1, [], [⟨7, [.pushByteArray [0x2a] false]⟩], 0⟩ =
    some [1, 0, 0, 0, 0, 1, 7, 0, 0, 0, 0, 0, 0, 0, 2, 1, 0x2a, 0, 0, 0, 0] := by decide +kernel
  simp only [UnhashedTx.hashed, this, Option.map_some]
  exact ⟨_, rfl, rfl, fun h => hH h.symm⟩

/-- **C92** (rewriting any type): whatever was read can be written, with at most as many bytes as were read; and
what is written is read back and written as the same bytes again: rewriting once is rewriting for good. -/
theorem C92_stable (ty : Ty) (data rest : Bytes) (v : ty.Val) (h : ty.codec.deserRest data = .ok (v, rest)) :
    ∃ bs w, ty.codec.ser v = some bs ∧ bs.length + rest.length ≤ data.length ∧
      (∀ more, ty.codec.deserRest (bs ++ more) = .ok (w, more)) ∧ ty.Same v w ∧ ty.codec.ser w = some bs := by
  obtain ⟨hok, bs, s1, l1⟩ := rewrites ty _ _ _ h
  obtain ⟨bs', w, s2, hs, hd⟩ := C14_roundtrip ty v hok
  rw [s1] at s2
  cases s2
  exact ⟨bs, w, s1, l1, hd, hs, by rw [same_ser ty v w hs, s1]⟩

/-- Non-vacuity: a valid raw transaction in shortest form, one that is not, and what is read from it. -/
example : RawTx.Valid ⟨200, 40⟩ ⟨1, .one, [⟨⟨List.replicate 32 7, rfl⟩, 3, ⟨.one, [.push .direct [1, 2]]⟩, 5⟩], .three,
    [⟨7, ⟨.one, [.op 0x76]⟩⟩], 0⟩ := by
  simp [RawTx.Valid, SizeForm.Fits, RawScript.Valid, Token.Valid, encodeTokens, Token.encode]

example : longPushTx.Valid ⟨200, 40⟩ ∧ ¬ longPushTx.Canonical ∧
    TxReads longPushTx ⟨1, [], [⟨7, [.pushByteArray [0x2a] false]⟩], 0⟩ := by
  refine ⟨by simp [longPushTx, RawTx.Valid, SizeForm.Fits, RawScript.Valid, Token.Valid, encodeTokens, Token.encode], ?_, ?_⟩
  · simp [longPushTx, RawTx.Canonical, RawScript.Canonical, Token.ShortPrefix]
  · refine ⟨rfl, .nil, .cons ⟨rfl, .cons (.push _ _ _ ?_) .nil⟩ .nil, rfl⟩
    simp [MinimalPush]

example : RawTx.Canonical ⟨1, .one, [], .one, [⟨7, ⟨.one, [.push .direct [0x2a], .op 0x76]⟩⟩], 0⟩ := by
  simp [RawTx.Canonical, RawScript.Canonical, Token.ShortPrefix, SizeForm.Shortest]

/-- Non-vacuity of `C92_stable`: a compact size in a longer form. -/
example : ∃ v, (Ty.bytes).codec.deserRest [0xfd, 1, 0, 9, 8] = .ok (v, [8]) := ⟨[9], rfl⟩

end BCash
