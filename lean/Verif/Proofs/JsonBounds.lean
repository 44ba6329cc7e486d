import Verif.Proofs.JsonExport
import Verif.Proofs.Json
import Verif.Props.Compact

/-! # Every index of an exported document points into its table -/

namespace BCash
namespace Json
open Spec

/-- What the exporter keeps: indices point into the tables; preimages come first. -/
structure Inside (data : JsonData) : Prop where
  strings : ∀ s i, data.stringIndices s = some i → i < data.tables.strings.length
  datas : ∀ d i, (d, i) ∈ data.dataIndices → i < data.tables.dataB64.length
  entries : ∀ (k : Nat) (e : JsonByteArray), data.tables.byteArrays[k]? = some e → e.dataIdx < data.tables.dataB64.length ∧
    (∀ n, e.nameIdx = some n → n < data.tables.strings.length) ∧
    ∀ is, e.preimageIndices = some is → ∀ i ∈ is, i < k

/-- `Q` stays true when tables grow. -/
def Stays {β : Type} (Q : JsonTables → β → Prop) : Prop := ∀ t t' b, Ext t t' → Q t b → Q t' b

/-- A step of the exporter whose result satisfies `Q`. -/
def Step {α β : Type} (f : JsonData → α → JsonData × β) (Q : JsonTables → β → Prop) : Prop :=
  ∀ data a, Inside data → Inside (f data a).1 ∧ Ext data.tables (f data a).1.tables ∧
    Q (f data a).1.tables (f data a).2

def StrIn (t : JsonTables) (i : Nat) : Prop := i < t.strings.length
def DataIn (t : JsonTables) (i : Nat) : Prop := i < t.dataB64.length
def ArrIn (t : JsonTables) (i : Nat) : Prop := i < t.byteArrays.length

theorem stays_str : Stays StrIn := fun _ _ _ h hq => Nat.lt_of_lt_of_le hq h.strings.length_le
theorem stays_arr : Stays ArrIn := fun _ _ _ h hq => Nat.lt_of_lt_of_le hq h.arrays.length_le

theorem stays_list {β : Type} {Q : JsonTables → β → Prop} (h : Stays Q) :
    Stays (fun t (bs : List β) => ∀ b ∈ bs, Q t b) := fun t t' _ he hq b hb => h t t' b he (hq b hb)
theorem stays_opt {β : Type} {Q : JsonTables → β → Prop} (h : Stays Q) :
    Stays (fun t o => ∀ b, o = some b → Q t b) := fun t t' _ he hq b hb => h t t' b he (hq b hb)

theorem step_mapState {α β : Type} {f : JsonData → α → JsonData × β} {Q : JsonTables → β → Prop}
    (h : Step f Q) (hs : Stays Q) : Step (mapState f) (fun t bs => ∀ b ∈ bs, Q t b) := by
  intro data l
  induction l generalizing data with
  | nil => intro hi; exact ⟨hi, Ext.refl _, fun _ h => nomatch h⟩
  | cons a l ih =>
    intro hi
    obtain ⟨i1, e1, q1⟩ := h data a hi
    obtain ⟨i2, e2, q2⟩ := ih (f data a).1 i1
    refine ⟨i2, e1.trans e2, fun b hb => ?_⟩
    rcases List.mem_cons.mp hb with rfl | hb
    · exact hs _ _ _ e2 q1
    · exact q2 b hb

theorem step_optState {α β : Type} {f : JsonData → α → JsonData × β} {Q : JsonTables → β → Prop}
    (h : Step f Q) : Step (optState f) (fun t o => ∀ b, o = some b → Q t b) := by
  intro data o hi
  cases o with
  | none => exact ⟨hi, Ext.refl _, fun _ h => nomatch h⟩
  | some a =>
    obtain ⟨i1, e1, q1⟩ := h data a hi
    exact ⟨i1, e1, fun b hb => by cases hb; exact q1⟩

theorem step_string : Step JsonData.insertString StrIn := by
  intro data s hi
  unfold JsonData.insertString
  cases hs : data.stringIndices s with
  | some i => exact ⟨hi, Ext.refl _, hi.strings s i hs⟩
  | none =>
    refine ⟨⟨?_, hi.datas, ?_⟩, ⟨List.prefix_refl _, List.prefix_refl _, List.prefix_append _ _⟩, ?_⟩
    · intro u i hu
      dsimp only at hu ⊢
      rw [List.length_append, List.length_singleton]
      split at hu
      · cases hu; omega
      · have := hi.strings u i hu; omega
    · intro k e he
      obtain ⟨h1, h2, h3⟩ := hi.entries k e he
      refine ⟨h1, fun n hn => ?_, h3⟩
      dsimp only
      rw [List.length_append]
      have := h2 n hn; omega
    · simp [StrIn]

theorem step_data (b64 : Bytes → String) : Step (JsonData.ensureData b64) DataIn := by
  intro data d hi
  unfold JsonData.ensureData
  cases hs : data.dataIndices.byLeft d with
  | some i => exact ⟨hi, Ext.refl _, hi.datas d i (byLeft_mem hs)⟩
  | none =>
    refine ⟨⟨hi.strings, ?_, ?_⟩, ⟨List.prefix_append _ _, List.prefix_refl _, List.prefix_refl _⟩, ?_⟩
    · intro u i hu
      dsimp only at hu ⊢
      rw [List.length_append, List.length_singleton]
      rcases insert_mem hu with h | h
      · obtain ⟨_, rfl⟩ := h; omega
      · have := hi.datas u i h; omega
    · intro k e he
      obtain ⟨h1, h2, h3⟩ := hi.entries k e he
      refine ⟨?_, h2, h3⟩
      dsimp only
      rw [List.length_append]
      omega
    · simp [DataIn]

theorem step_push (b64 : Bytes → String) (data : JsonData) (hi : Inside data) (d : Bytes) (name : Option String)
    (f : Function) (idxs : Option (List Nat))
    (hidx : ∀ is, idxs = some is → ∀ i ∈ is, i < data.tables.byteArrays.length) :
    Inside (data.pushByteArray b64 d name f idxs).1 ∧
      Ext data.tables (data.pushByteArray b64 d name f idxs).1.tables ∧
      ArrIn (data.pushByteArray b64 d name f idxs).1.tables (data.pushByteArray b64 d name f idxs).2 := by
  obtain ⟨i1, e1, q1⟩ := step_optState step_string data name hi
  obtain ⟨i2, e2, q2⟩ := step_data b64 (optState JsonData.insertString data name).1 d i1
  unfold JsonData.pushByteArray
  dsimp only
  generalize optState JsonData.insertString data name = r1 at *
  obtain ⟨d1, n1⟩ := r1
  dsimp only at *
  generalize JsonData.ensureData b64 d1 d = r2 at *
  obtain ⟨d2, n2⟩ := r2
  dsimp only at *
  have e := e1.trans e2
  refine ⟨⟨i2.strings, i2.datas, ?_⟩, ⟨e.data, e.arrays.trans (List.prefix_append _ _), e.strings⟩, ?_⟩
  · intro k en hk
    dsimp only at hk ⊢
    by_cases hlt : k < d2.tables.byteArrays.length
    · rw [List.getElem?_append_left hlt] at hk
      exact i2.entries k en hk
    · rw [List.getElem?_append_right (by omega)] at hk
      have hk0 : k - d2.tables.byteArrays.length = 0 := by
        by_contra hc
        rw [List.getElem?_eq_none (by simp; omega)] at hk
        cases hk
      rw [hk0] at hk
      simp only [List.getElem?_cons_zero, Option.some.injEq] at hk
      subst hk
      refine ⟨q2, fun n hn => ?_, fun is his i him => ?_⟩
      · exact Nat.lt_of_lt_of_le (q1 n hn) e2.strings.length_le
      · have := hidx is his i him
        have := e.arrays.length_le
        omega
  · simp [ArrIn]

mutual
theorem step_array (b64 : Bytes → String) : ∀ (a : ByteArray) (data : JsonData), Inside data →
    Inside (data.insertByteArray b64 a).1 ∧ Ext data.tables (data.insertByteArray b64 a).1.tables ∧
      ArrIn (data.insertByteArray b64 a).1.tables (data.insertByteArray b64 a).2
  | .mk d n f none, data, hi => by
    rw [JsonData.insertByteArray]
    exact step_push b64 data hi d n f none (fun _ h => nomatch h)
  | .mk d n f (some ps), data, hi => by
    rw [JsonData.insertByteArray]
    obtain ⟨i1, e1, q1⟩ := step_many b64 ps data hi
    dsimp only
    obtain ⟨i2, e2, q2⟩ := step_push b64 (data.insertMany b64 ps).1 i1 d n f
      (some (data.insertMany b64 ps).2) (fun is h i him => by cases h; exact q1 i him)
    exact ⟨i2, e1.trans e2, q2⟩

theorem step_many (b64 : Bytes → String) : ∀ (ps : List ByteArray) (data : JsonData), Inside data →
    Inside (data.insertMany b64 ps).1 ∧ Ext data.tables (data.insertMany b64 ps).1.tables ∧
      ∀ i ∈ (data.insertMany b64 ps).2, ArrIn (data.insertMany b64 ps).1.tables i
  | [], data, hi => by
    rw [JsonData.insertMany]
    exact ⟨hi, Ext.refl _, fun _ h => nomatch h⟩
  | p :: ps, data, hi => by
    rw [JsonData.insertMany]
    dsimp only
    obtain ⟨i1, e1, q1⟩ := step_array b64 p data hi
    obtain ⟨i2, e2, q2⟩ := step_many b64 ps (data.insertByteArray b64 p).1 i1
    refine ⟨i2, e1.trans e2, fun i hm => ?_⟩
    rcases List.mem_cons.mp hm with rfl | hm
    · exact stays_arr _ _ _ e2 q1
    · exact q2 i hm
end

/-- The indices of an operation point into the tables. -/
structure OpIn (t : JsonTables) (o : JsonTaggedOp) : Prop where
  op : ∀ i m, o.op = .pushByteArray i m → ArrIn t i
  srcFile : StrIn t o.srcFile
  srcCode : ∀ p ∈ o.srcCode, StrIn t p.2
  names : ∀ l, o.pushedNames = some l → ∀ x ∈ l, ∀ k, x = some k → StrIn t k
  alt : ∀ l, o.altPushedNames = some l → ∀ x ∈ l, ∀ k, x = some k → StrIn t k

theorem stays_op : Stays OpIn := fun _ _ _ he h =>
  ⟨fun i m e => stays_arr _ _ _ he (h.op i m e), stays_str _ _ _ he h.srcFile,
   fun p hp => stays_str _ _ _ he (h.srcCode p hp),
   fun l hl x hx k hk => stays_str _ _ _ he (h.names l hl x hx k hk),
   fun l hl x hx k hk => stays_str _ _ _ he (h.alt l hl x hx k hk)⟩

theorem step_op (b64 : Bytes → String) : Step (JsonOp.fromOp b64)
    (fun t o => ∀ i m, o = .pushByteArray i m → ArrIn t i) := by
  intro data o hi
  cases o with
  | pushByteArray a m =>
    obtain ⟨i1, e1, q1⟩ := step_array b64 a data hi
    exact ⟨i1, e1, fun i m h => by cases h; exact q1⟩
  | _ => exact ⟨hi, Ext.refl _, fun _ _ h => nomatch h⟩

theorem step_names : Step (optState (mapState (optState JsonData.insertString)))
    (fun t o => ∀ l, o = some l → ∀ x ∈ l, ∀ k, x = some k → StrIn t k) :=
  step_optState (step_mapState (step_optState step_string) (stays_opt stays_str))

theorem step_code : Step (mapState (fun data (p : UInt32 × String) =>
    let (data, idx) := JsonData.insertString data p.2
    (data, (p.1, idx)))) (fun t l => ∀ p ∈ l, StrIn t p.2) :=
  step_mapState (fun data p hi => step_string data p.2 hi) (fun _ _ _ he h => stays_str _ _ _ he h)

theorem step_taggedOp (b64 : Bytes → String) : Step (JsonTaggedOp.fromTaggedOp b64) OpIn := by
  intro data t hi
  obtain ⟨i1, e1, q1⟩ := step_op b64 data t.op hi
  obtain ⟨i2, e2, q2⟩ := step_string _ t.srcFile i1
  obtain ⟨i3, e3, q3⟩ := step_code _ t.srcCode i2
  obtain ⟨i4, e4, q4⟩ := step_names _ t.pushedNames i3
  obtain ⟨i5, e5, q5⟩ := step_names _ t.altPushedNames i4
  refine ⟨i5, e1.trans (e2.trans (e3.trans (e4.trans e5))), ?_⟩
  exact ⟨fun i m h => stays_arr _ _ _ (e2.trans (e3.trans (e4.trans e5))) (q1 i m h),
    stays_str _ _ _ (e3.trans (e4.trans e5)) q2,
    fun p hp => stays_str _ _ _ (e4.trans e5) (q3 p hp),
    fun l hl x hx k hk => stays_str _ _ _ e5 (q4 l hl x hx k hk), q5⟩

theorem step_ops (b64 : Bytes → String) : Step (makeJsonOps b64) (fun t l => ∀ o ∈ l, OpIn t o) :=
  step_mapState (step_taggedOp b64) stays_op

/-- The indices of an input point into the tables. -/
structure InputIn (t : JsonTables) (i : JsonInput) : Prop where
  hash : ArrIn t i.prevOutHash
  script : ∀ o ∈ i.script, OpIn t o
  lock : ∀ l, i.lockScript = some l → ∀ o ∈ l, OpIn t o

theorem stays_input : Stays InputIn := fun _ _ _ he h =>
  ⟨stays_arr _ _ _ he h.hash, fun o ho => stays_op _ _ _ he (h.script o ho),
   fun l hl o ho => stays_op _ _ _ he (h.lock l hl o ho)⟩

theorem step_input (b64 : Bytes → String) : Step (JsonInput.fromInput b64) InputIn := by
  intro data i hi
  obtain ⟨i1, e1, q1⟩ := step_array b64 i.prevHash.1 data hi
  obtain ⟨i2, e2, q2⟩ := step_ops b64 _ i.script i1
  obtain ⟨i3, e3, q3⟩ := step_optState (step_ops b64) _ i.lockScript i2
  refine ⟨i3, e1.trans (e2.trans e3), ?_⟩
  exact ⟨stays_arr _ _ _ (e2.trans e3) q1, fun o ho => stays_op _ _ _ e3 (q2 o ho), q3⟩

theorem step_output (b64 : Bytes → String) : Step (JsonOutput.fromOutput b64)
    (fun t o => ∀ p ∈ o.script, OpIn t p) := fun data o hi => step_ops b64 data o.script hi

theorem inside_empty : Inside .empty :=
  ⟨fun _ _ h => by simp [JsonData.empty] at h, fun _ _ h => by simp [JsonData.empty] at h,
   fun k e h => by simp [JsonData.empty] at h⟩

/-- The whole export. -/
theorem step_tx (b64 : Bytes → String) (tx : RichTx) :
    (∀ (k : Nat) (e : JsonByteArray), (JsonTx.fromTx b64 tx).data.byteArrays[k]? = some e →
      e.dataIdx < (JsonTx.fromTx b64 tx).data.dataB64.length ∧
      (∀ n, e.nameIdx = some n → n < (JsonTx.fromTx b64 tx).data.strings.length) ∧
      ∀ is, e.preimageIndices = some is → ∀ i ∈ is, i < k) ∧
    (∀ i ∈ (JsonTx.fromTx b64 tx).inputs, InputIn (JsonTx.fromTx b64 tx).data i) ∧
    ∀ o ∈ (JsonTx.fromTx b64 tx).outputs, ∀ p ∈ o.script, OpIn (JsonTx.fromTx b64 tx).data p := by
  obtain ⟨i1, e1, q1⟩ := step_mapState (step_input b64) stays_input .empty tx.inputs inside_empty
  obtain ⟨i2, e2, q2⟩ := step_mapState (step_output b64) (fun _ _ _ he h p hp => stays_op _ _ _ he (h p hp)) _ tx.outputs i1
  exact ⟨i2.entries, fun i hi => stays_input _ _ _ e2 (q1 i hi), q2⟩

end Json
end BCash
