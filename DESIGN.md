# Formal model of rgb-std in Lean 4

Source: /repo (RGB-WG/rgb-std, Rust, read as text only). Model: `lean/Verif/`.
Properties: `properties.jsonl`. Mapping to theorems: `MANIFEST.json`. Mutation log: `seeded/LOG.jsonl`.
Axioms of each theorem: `AXIOMS.md`.

## Conventions

* The model consists of total computable functions over core Lean data.
  `Result`/`Option` stay data. A Rust panic (`unwrap`, `expect`, `unreachable!`, slice index, `assert!`)
  is an explicit `panic` error value, or `none` where the function has no error of its own.
* `&mut self` methods return the new value.
  For fallible methods that mutate before failing, the new value is returned also along with the error.
* `u64` / `u32` values are `Nat` with explicit bounds, or range hypotheses in statements;
  every arithmetic operation which can wrap or panic is modelled with its bound.
* `BTreeMap`/`BTreeSet` (and `amplify` confined variants) are sorted association lists (`OMap`, `OSet`), so
  iteration order is the real one. Size limits of confined collections are modelled where the code
  depends on them (terminals 255 entries, inherited interfaces, annotations, builders), otherwise they are dropped.
* `HashMap`/`HashSet` are sorted lists, too; the order of iteration is a parameter (an arbitrary permutation).
* 32-byte identifiers are `Nat` (their byte order is big-endian numeric order).
* Hash commitments are fields of a parameter structure (`Commit`): arbitrary functions. Collision resistance
  is an explicit hypothesis (`Commit.Binding`) only in theorems which need it.
* Each definition has a comment with the file and the lines it models and the simplifications made.
* `Verif/Model/*` model, `Verif/Spec/*` specification vocabulary that doesn't use model helpers (and the concrete worlds
  used as examples), `Verif/Lemmas/*` supporting lemmas, `Verif/Props/*` the property theorems with non-vacuity examples.
* If a property is false of the code, its negation is proved with a concrete witness (theorem name ends
  with `_fails`), and the strongest part which holds is proved with the suffix `_partial`.

## Plan per property

| Property | Model | Proof |
|---|---|---|
| C01 | base32 (RFC 4648 bit packing, alphabet of the code), trimming of little-endian bytes, parser | induction over digit lists: decode∘encode = id; byte recomposition |
| C02 | saturating/checked ops, fold of `saturating_add` | induction over list, permutation invariance |
| C03 | split/round/ceil/floor/rem, conversion functions | Euclidean division arithmetic |
| C04 | Display and FromStr on `List Char` | false in general: witness; partial theorem with the exact class for which it holds |
| C05 | decimal printing/parsing on `List Char` | decimal round-trip lemma |
| C06 | Display/FromStr of invoice, with id codecs as parameters with stated round-trip and charset hypotheses | string splitting lemmas; false for invoices with operation/assignment names: witness |
| C07 | ChainNet | case analysis; false for Liquid mainnet |
| C08 | RgbTransport | string prefix lemmas |
| C09 | percent-encoding, query split | induction; false with '%' in text: witness |
| C10 | Pay2Vout bytes | list lemmas |
| C11 | builder record and calls | field frame theorems; induction over call sequences |
| C12–C14 | Assign/TypedAssigns/Assignments/operations with four disclosure forms and `Commit` | knowledge order; merge = join |
| C15 | TransitionBundle merge | false: witness; partial |
| C16 | PubWitness merge | false: witness; partial |
| C17 | AnchorSet merge, abstract MPC merge | case analysis |
| C18 | reveal_seal, witness bundle and consignment versions | list induction |
| C19–C22 | MemIndex with all write ops, driven by an op list | invariants by induction over histories |
| C23–C29, C61 | MemState, MemContractState, MemContract, State, iterators | invariants, refinement to a set-of-facts specification |
| C30–C33, C62 | MemStash, Stash | invariants by induction |
| C34–C35 | store_transaction over abstract providers with failure oracles; disk with crash points; the concrete stock | case analysis of all failure points; induction over histories |
| C36–C37 | consign worklist over index/stash | loop invariant: closure under parents; soundness by reachability |
| C38–C42, C66 | compose_deterministic over the stock and the builders | arithmetic and list induction; exact results of the builder calls; for C66 a Hoare-style predicate `Safe` (each step gives a value in range or an error which isn't a panic) through all loops of composing, with the invariant `BSafe` of the builders |
| C43–C46, C65 | builders | group algebra for blinding, invariants over call sequences, exact acceptance |
| C47–C53, C63 | iface, iimpl, inheritance | order theory, induction over chains; false ones with witnesses |
| C54–C55 | filters, history | set reasoning, exact sums |
| C56–C60 | containers: batches, pairs of bundles, indexed consignments, files, supplements | list and map reasoning |
| C64 | consume/consign over all three stores | records which each finished event leaves are kept by every later event (induction over histories); completeness of the worklist |
| C67 | consignment and kit ids over abstract collision-free document ids | injectivity of the committed tuple; false ones with pairs of different consignments with one id |
| C68 | `validate` of consignments and kits around an abstract verdict of rgb-core | exact report, frame |
| C69–C71 | texts of tickers, media types and specifications | character classes by enumeration of ASCII, induction over texts; order of tickers and charset: false with witnesses |
| C72 | consume_consignment over all three stores | each store operation succeeds under explicit conditions, kept by the preceding ones (frame lemmas, induction over bundles and operations) |
| C73 | transfer of one stock, consume_consignment of another | structure of what consigning makes (an invariant over all events of the sender) implies C72's conditions; one contract: operations of another one lead to its genesis, which is no transition |
| C74 | the same with a secret seal | terminals of the transfer, secrets resolved by the receiver, the state's entries traced to the calls that made them |
| C75 | export_contract, import | consigning with no outputs leaves the accumulator empty; then C64, C73; entries of genesis traced as in C74 |
| C76 | contract_raw, contract_iface, contract_iface_class, contracts_by, global | stored genesis ⇒ imported ⇒ schema, state and types complete (C69, C64 lemmas); search for implementations by C62; induction over items |
| C77 | export_schema, import_kit | the loops can't fill a set of 255 (invariant on implementations); import of the kit computed store by store |
| C78 | contract state, index, compose over histories | invariant: each entry of the state has its output in the index; kept by indexing before (fascia) or after (consignment) the update of the state unless the consignment is refused |
| C79 | stash, contract state and index over histories | invariant over the history: each operation written to the state or the index is shown by one which the stash tells of; merging of anchors keeps what they commit to |
| C80 | `MemContract::init`, `evolve_state` and the stored contract state | both folds give the same entries; the entries of a sorted map determine it; only mentioned witnesses matter for reads |
| C81 | `contract_builder`, `transition_builder`, `blank_builder` of the stash | invariants of the stash (documents under their ids, implementations under names of known interfaces) give that lookups find the only implementation; the rest by cases |
| C82 | builder, `issue_contract`, import into the stock, `contract_state` | C46 for the genesis, C72 for acceptance, the state of a new contract from the state invariant; documents are known, so importing them changes nothing |
| C83 | `consume_consignment`, `consume_fascia` of the stock, the order of writing of C35 | the three stores are updated independently; indexing what is indexed changes nothing (invariant of sorted maps), adding operations again changes only positions of witnesses (C26), which are replaced |
| C84 | `consume_consignment`, `consume_fascia`, `consume_kit` of the stock and the stash | what is stored absorbs what was merged into it (`Absorbs`): merging again changes nothing; each loop of the stash is walked twice, with the invariant that everything of the prefix is absorbed and stays so; index and state as in C83 |
| C85 | as C36, C64, C73 | operations with a complete history are an inductive predicate (`Traced`) over the events of the payee; a transfer which the payer finished gives finite histories (what isn't can't be left by the loop), by induction on which each needed operation is traced for the payee; the loop ends on traced operations by the same induction |
| C86 | the four descriptions and the listings made of them (`info.rs`), the data which the stash doesn't read as functions of documents | the stash of any history is a sequence of writes, of which sortedness, addresses and names of implementations are invariants; the listing is the map over the store; stability by what writes keep |
| C87 | the displayed text of an interface as a list of characters, line by line (`contractum.rs`); texts of names, ids and types are parameters with stated character sets | the text is taken apart from the front: lines by line breaks, parts by the first three characters of lines, lists by commas, induction over each list |
| C88 | values of contract state as trees with named fields, options and newtypes; the readers of the standard types (`from_strict_val_unchecked`) with panics as `none` | each reader is equivalent to: the value has this field by field (a separate inductive relation), and it keeps the limits of its type |
| C89 | nothing new: composing, consuming, transferring and accepting together | C38 (amounts paid to the seal), C64 (what a fascia brings is known later), C74 (what is requested arrives) and C85 (a transfer is made), connected through the index of terminals |
| C90 | nothing new: the limits (`tinyMax`, `sigsMax`) are in the model of the stash, state and index | an invariant of every write of the stash, every call of the index and the state; for refusals, induction over the calls of a transaction with the invariant |
| C91 | nothing new | composition: C38 (amounts), C64 (consumed state is stored), C36 (transfers); an assignment to an output of the witness itself can be made with this witness only |
| C92 | nothing new | composition: C38/C40 (what is moved), C41 (the token), C64, C89, C91 (the way into the state of both wallets); the state found before is that of the view, and after by the counting of the items of all transitions |
| C93 | nothing new; the conditions are `Stock.Payable` (Spec/Payable.lean) | progress: an invariant of both builders (limits not reached, each slot type has an input, all inputs fit the schema and the tags) is kept by each call, so each call succeeds; then completion, outputs and blank transitions succeed; the converse for amounts and tokens by C39 and C41 |
| C94 | nothing new; the conditions are `Fascia.Coherent`, `Stock.Consistent`, `Stock.Holds` (Spec/Consume.lean) | each of the three stores is shown to take the fascia exactly under its part of the conditions (the loops by induction, with invariants for the index); for payments, what the transitions of a composed batch assign to is followed through the builder, and C78 gives the contracts in the index |
| C95 | nothing new; `Fascia.Packs` (Spec/Settle.lean) says what a fascia of a payment is | C93, C94, C89 and C73 are chained: what each of them assumes is derived from the previous ones (which assignments are to the secret seal, that bundles and witnesses are new, that the history with the fascia is complete), and from the history before the payment. For payments to an output of the new transaction C91 is used instead of C89: what is at the output was assigned there by the payments only (Lemmas/SettleOut.lean) |
| C96 | nothing new; what a history had is defined in Spec/Source.lean | invariant over all histories: each stored assignment and item of global state comes from an operation of an event, each secret seal from an event. Revealing seals of a consignment keeps the id of an operation and changes only hidden seals into seals of the stash with this hash (Lemmas/Reveal.lean). For stored and consigned operations the same invariant is proved of the stash (Lemmas/StashSource.lean) |
| C97 | nothing new; the network is the inductive `Honest` and affordable invoices are `Stock.Affords` (Spec/Conform.lean) | invariant over all steps of all wallets, by induction on `Honest` (Lemmas/Honest.lean): the history is complete (`Furnished`), conforms to the schemata, its bundles are those which the transactions commit to, and all transitions came with their histories. Composed transitions conform (Lemmas/Conform.lean), a transfer has only what conforming operations showed (C96). With it C95 is applied at each hop. |
| C98 | nothing new; what the transactions commit to is `Ledger`, and `Fascia.Attested` says that a payment is made according to it (Spec/Conform.lean) | invariants over `Honest`: each stored witness is attested by the ledger (through merging of anchors, and through transfers, in which the proofs are made of the stored Merkle blocks), each transition brought is in its bundle and contract (Lemmas/Network.lean). From this `Stock.Agrees`, then C73. |
| C99 | the running wallet: calls of the stock with their writes to the files, restarts and panics (Model/Restart.lean, over `PStock` of C35) | invariant: after each successful call the files have the stock in memory; a failed one writes nothing. By induction over the calls. Trust levels are not saved (`C99_trust_fails`), and without a restart the rest of a refused consignment gets written later (`C99_written_fails`). |
| C100 | composing (C38–C41), networks of wallets (C97) | quantities of states (`Quantity`); each composed transition issues at most what it spends, by the multiset of calls to the builder. For the network: each transition a wallet has was composed by some wallet (induction over `Honest`), hides no state there, and its inputs are of operations of the same history; then counting: the unspent outputs and the inputs of all known transitions are distinct and are outputs of the genesis and of known transitions, so the sums cancel. |
| C101 | composing, networks of wallets (C97, C100) | conditions of C38, C40 and C41 gathered in `KeepsAll`; the composed transition assigns what it spends (from those theorems); for the network, all outputs of operations which the wallets have are counted: each is unspent or an input of such a transition, and inputs are no more than what is assigned |
| C102 | networks of wallets (C97), state (C23, C96) | each allocation comes from an operation of the history (C96) with the ledger's witness; operations with the same id agree on all which they show, by the binding of commitments; the converse by C64; the order of global state by the keys, which two wallets sort alike |
| C103 | networks of wallets (C97) with the transactions which spend outputs; batches (C56) | induction over the networks that every bundle closes the seals of what it spends, by C56 for the payer's own state and C102 for everybody's; then one transaction and closing method per output, one bundle per transaction, contract and method, one transition per bundle |
| C104 | networks of wallets (C97), witness updates (C25) | each witness which came with an operation is known to the state; an update stores the resolver's answer (C25); then C102 |
| C105 | `taprets`, `known_bundle_ids`, merging of anchors | invariant that what a later stash shows of a witness keeps proof and root of each anchor, over all histories; networks by C97's invariant on anchors |
| C106 | the hand-written `PartialEq`, `Ord`, `Hash`, and the derived ones of containers | each is shown to compare a key, which gives the laws; contents by induction over the sequences; counterexamples where they ignore or mix up contents |

No property of the list was left out as impossible to express.

## Trusted base

* Lean 4 kernel. Axioms: only `propext`, `Classical.choice`, `Quot.sound` (per theorem in `AXIOMS.md`); no axioms of our own,
  no `sorry`, no `native_decide`, no `bv_decide`.
* The faithfulness of the hand translation of the cited lines.
* The behaviour of dependencies which aren't in the sandbox, as follows.

### External behaviour

Parameters of the model (arbitrary functions; hypotheses on them are named structures and appear in the statements):

* `Commit` (Model/Core): ids of seals, states, operations, bundles, transactions. `Commit.Binding`: collision resistance.
* `Ids` (Model/Stash): ids of schemata, interfaces, libraries, contents; `Ids.Lawful`: the schema id is binding and equal genesis
  ids give equal schema ids. `CIds.Binding` (Spec/Container): other document ids are binding.
* `Mpc` (Model/Stash): `MerkleBlock::with` of bp-core; `Mpc.Lawful`: the made block has the contract. `Stock.Env`:
  `MerkleBlock::to_merkle_proof`, type ids and libraries used by documents; `Env.Lawful`: a proof exists for known contracts.
  Merging of merkle blocks and DBC proofs is abstracted to equality of roots and union of entries (Model/Merge).
* `Codecs.Lawful` (Spec/Invoice): baid64 and base58/bech32 texts of ids, seals, vouts, attachments: round trip (with and without dashes),
  only URI path characters, beneficiaries of the two kinds are distinguished.
* `fluent_uri` parsing is modelled as splitting at `:`, `/`, `?` with character classes; percent-encoding, ASCII lower-casing and
  fast32 padding bits (`sp`: whether trailing bits are checked; statements hold for both).
* `Codec.Lawful` (Spec/StoreTx): strict encoding of a store: round trip, no proper prefix decodes. `File::create` truncates and then
  the content is written in place (any prefix may be on the disk after a crash).
* `StreamCodec.Lawful` (Spec/File): strict encoding of containers reads exactly what was written from a stream; `Armor.Lawful`:
  ascii-armor parses what it prints (title, id, data; a header with values has values) and checks the id against the header.
  `Labels`: the texts of ids, versions, closing methods and names in the headers; `Armor.KeepsHeaders` (only for the theorem
  about the contents of headers): headers are parsed as printed.
* `TxProvider.Lawful`: what a provider with true transactions does. `memProvider` models the providers of memory.rs (no
  transactions; rollback panics).
* Resolver of witnesses: a function per call (`r : Nat → …`), different calls may use different ones. `WitnessOrd`: mined
  (height, rest), tentative, ignored, archived, in this order; `is_valid()` = not archived.
* The verdict of the validator of rgb-core (`Validator` in Model/Container): arbitrary. Consignments which were validated are described by
  hypotheses of the histories (`Proper` events in Spec/Stock: known transitions are listed under their ids and only spent inputs are listed), which is what consuming needs.
* `BEnv.Lawful`: `BlindingFactor::zero_balanced` returns the missing summand modulo the order of the curve; iteration over a `HashSet`
  is a permutation. `BEnv.types`: typed data checks of strict_types. `CEnv.Lawful`: iteration over hash maps is a permutation;
  `Wallet`: closures given to composing, per call site (`Site`).
* chrono timestamps (`validTs`), the clock `now`.
* amplify: `Confined::push`/`insert` error whenever the length is at the limit, even if the key is present; `BTreeSet::insert` of an
  equal element keeps the old one; `BTreeMap::insert` keeps the old key and takes the new value.
* rgb-core: `Metadata::add_value` refuses a second value of a type, `GlobalState::add_state` appends; `TransitionBundle`
  invariants are `Bundle.WF`.

### Modelled

| Model | Code |
|---|---|
| Base, Text, Base32 | collections, text helpers, fast32 |
| Amount, Invoice, InvoiceBuilder | invoice/src: amount, data, invoice, parse, builder (all of it, except error texts) |
| Core, Merge | contract/merge_reveal.rs, contract/assignments.rs, containers/anchors.rs, revealing in containers/consignment.rs |
| Index | persistence/index.rs, index part of memory.rs |
| State | persistence/state.rs, state part of memory.rs, contract/mod.rs |
| Stash | persistence/stash.rs, stash part of memory.rs, containers/util.rs (trust, signatures), kit.rs (consuming) |
| StoreTx | store_transaction and consuming in stock.rs, persistence/mod.rs, fs.rs |
| Stock | consume_*, import_*, consign and transfer in stock.rs |
| Builder | interface/builder.rs, containers/seal.rs (BuilderSeal) |
| Compose | compose and compose_deterministic in stock.rs, state_for_outpoints |
| Batch | containers/partials.rs |
| Iface | interface/iface.rs, iimpl.rs, inheritance.rs |
| History | interface/contract.rs, interface/filter.rs |
| Indexed, File, Container, Suppl | containers/indexed.rs, file.rs, consignment.rs, kit.rs, suppl.rs |
| Open | listing, opening and reading of contracts, export_schema in stock.rs; global in contract.rs |
| Specs | stl/specs.rs, stl/mime.rs |

### Not modelled

The validation algorithm of rgb-core (only its verdict is used), Bitcoin/Liquid transactions and PSBTs, tapret/opret proofs,
hashing, the bytes of strict encoding (codecs with round-trip hypotheses), the text layout of ascii-armor, autosave on `Drop`,
printing of reports (`Display` of `info.rs`), the generated type libraries (`stl.rs`), serde,
the deprecated/unfinished `disclosure.rs`, error texts, signature verification (a given verdict), the limits
on the numbers of bundles, terminals and scripts of a consigned transfer (2^16 and more). Decoding of a `ClientBundle` doesn't compare the closing method of the bundle with the anchor; this isn't modelled
as consigning always makes matching ones.

## Disagreements found

The code disagrees with the property in these cases (each is a proved theorem):

* `C04_alternate_indivisible_fails` (Props/Amount.lean): C04: the alternate form panics for indivisible amounts, and parsing accepts fractions exceeding the precision, for which display panics.
* `C04_coin_display_roundtrip_fails` (Props/Amount.lean): C04 is false of the code: 10.00000500 coins are printed as "10.000005~8", which is parsed as 10.00000005 coins (a hundred times smaller fraction); 10 coins are printed as "10~8", which isn't parsed at all.
* `C06_builder_with_contract_only_fails` (Props/Invoice.lean): Invoices built by the builder from a contract id only (`RgbInvoiceBuilder::with`) never survive the text form.
* `C06_comma_in_host_fails` (Props/Invoice.lean): C06 fails: a comma inside of a host breaks the list of endpoints.
* `C06_invoice_text_roundtrip_fails` (Props/Invoice.lean): C06 fails: whatever the text is, the parser never returns an invoice with an operation or an assignment name, a contract without an interface, Liquid mainnet, or no transports; so no such invoice is parsed back from its text.
* `C07_prefix_roundtrip_fails` (Props/Invoice.lean): C07 fails: the prefix of Liquid mainnet is parsed as Bitcoin mainnet.
* `C09_query_decode_fails` (Props/Invoice.lean): C09 fails: a percent sign isn't escaped, so that another value is read.
* `C15_bundle_merge_fails` (Props/Merge.lean): C15 fails as stated: for every collision-free commitment scheme there are two well-formed disclosures of one bundle whose merge succeeds and loses a transition which the second one knows.
* `C16_witness_merge_fails` (Props/Merge.lean): C16 fails as stated: merging a witness with the full transaction and one with only the same txid gives a mismatch error, while in the other order it succeeds.
* `C21_lookup_by_outputs_fails` (Props/Index.lean): C21 is false without the proviso: of two seals on one outpoint with different closing methods only one is found.
* `C22_overflow_fails` (Props/Index.lean): C22 is false when a secret seal gets more than 255 outputs: the failing operation also loses the outputs known before.
* `C22_revealed_fails` (Props/Index.lean): C22 is false for revealed seals: an output assigned to a visible seal isn't found by the secret of that seal.
* `C23_reanchored_fails` (Props/State.lean): C23 fails when an operation is added again with another witness (the transaction was replaced), and its seal is on an explicit outpoint: the first witness stays with the state, so that when it is archived the state isn't returned in spite of the valid second witness.
* `C24_global_state_fails` (Props/State.lean): C24 fails for global state: after its witness is archived, a global state item is still returned.
* `C25_succeeded_fails` (Props/State.lean): C25 fails: a witness which couldn't be resolved is counted as a success, too.
* `C26_order_fails` (Props/State.lean): C26 fails when the same operation comes with two witnesses: the visible state then depends on the order.
* `C27_most_recent_fails` (Props/State.lean): C27 fails: with `max_items` of 1 the returned item is of the transition, which isn't even mined and has the greater hash, instead of the one of the mined transition. (Whichever of two is the more recent, with the ids the other way round the other one is returned.)
* `C30_implementation_fails` (Props/Stash.lean): C30 fails for implementations: they are stored under the *name* of the interface, so that storing an implementation of another interface of the same name makes the first one unavailable.
* `C30_name_lookup_fails` (Props/Stash.lean): A name doesn't always resolve to the same interface: importing another interface of the same name with a smaller id changes what the name stands for.
* `C31_known_transaction_fails` (Props/Stash.lean): C31: a consignment can't be consumed when the stash has the witness transaction in full and the consignment has only its id.
* `C31_transitions_fails` (Props/Stash.lean): C31 fails for transitions: two consignments with the same bundle are consumed without an error, and the transition which the second one brings can't be read afterwards.
* `C34_begin_fails` (Props/StoreTx.lean): C34: if the transaction of the stash can't be opened then the one of the state is left open (line 1258-1260 rolls back the stash only).
* `C34_body_fails` (Props/StoreTx.lean): C34 fails when the body of the operation fails: providers with true transactions, and after the error all three stores are changed (and the transactions are left open).
* `C34_commit_fails` (Props/StoreTx.lean): C34 fails when the last commit fails: the index and the state keep the changes, the stash doesn't.
* `C34_consume_consignment_fails` (Props/Stock.lean): C34 fails for consignments: a consignment, with the known transaction given by its id only, is refused with an error, and the state shows the new allocation afterwards, while the stash has nothing about the transition, so it can't be transferred.
* `C34_consume_fascia_fails` (Props/Stock.lean): C34 fails for fascias: the bundle of the second contract, which isn't known, is refused with an error, and the state shows the new allocation from the bundle of the first one.
* `C34_failed_written_fails` (Props/StoreTx.lean): C34 with files: what a failed operation has done gets on the disk with the next saving.
* `C35_torn_fails` (Props/StoreTx.lean): C35 fails inside of writing a file: for every operation which succeeds there is a moment such that, if the process stops, then neither the old nor the new stock can be loaded, since the file of the stash is truncated before it's written.
* `C36_extension_fails` (Props/Stock.lean): C36 fails for outputs which depend on an extension: the stock has the extension and the transition spending its output, but the output of this transition can't be transferred.
* `C36_same_outpoint_fails` (Props/Stock.lean): C36 fails when an outpoint has assignments with both closing methods: the transfer of the outpoint leaves one of them out.
* `C37_siblings_fails` (Props/Stock.lean): C37 fails: the output of `t3` is transferred, which depends on `t1` only, and the transfer reveals also `t2` with the amount which it pays to somebody else, since it's in the same bundle.
* `C38_collision_fails` (Props/Compose.lean): C38 is false if the beneficiary and the change get the same seal: then 10 are spent to pay 4, and there is only the change of 6.
* `C38_moved_fails` (Props/Compose.lean): C38 is false if two states of a type which aren't paid get the same seal: then one of the two rights is lost.
* `C38_overflow_fails` (Props/Compose.lean): C38 is false for sums over `u64` in release builds: 2⁶⁴ + 10 are spent to pay 10, and nothing is left.
* `C40_archived_fails` (Props/Blank.lean): C40 fails, it isn't possible to pay: if the only state of another contract at an output comes from a transaction which was replaced later, then the index lists the contract but there is no state to move, and composing any payment which spends the output panics.
* `C40_collision_fails` (Props/Blank.lean): C40 is false if two states of a type get the same seal: then one of the two rights of contract 2 is lost.
* `C41_other_tokens_fails` (Props/Compose.lean): C41 is false: paying the token 5 loses the token 6, which is at one of the spent outputs.
* `C41_zero_amount_fails` (Props/Compose.lean): C41 is false: an invoice for the amount of zero of a type of tokens loses all tokens at the spent outputs.
* `C43_burn_fails` (Props/Builder.lean): C43 is false of the code: a transition which has inputs of a fungible type and assigns nothing of that type completes, and the blinding factors aren't balanced.
* `C46_metadata_fails` (Props/Builder.lean): C46 is false of the code: metadata which were added are in none of the built operations.
* `C46_same_seal_fails` (Props/Builder.lean): C46 is false of the code: a second amount added to the same seal replaces the first one, silently.
* `C49_fails` (Props/Iface.lean): C49 is false of the code: an operation may be declared final by the interface which extends another one. The result keeps the modifier of the other interface (the field isn't assigned, /repo/src/interface/inheritance.rs:569-678), so the next extension overrides it: here the transition 1, final in `fungibleAsset`, is overridden by `burnableAsset`.
* `C51_twice_fails` (Props/Iface.lean): C51 is false of the code: a name which is bound to two types isn't reported. The counters start from 0, so that they are 1 after the second occurrence, but only those above 1 are reported (/repo/src/interface/iimpl.rs:419-434).
* `C51_unknown_fails` (Props/Iface.lean): C51 is false of the code: a bound name which the interface doesn't have isn't reported (unless it is the name of an error).
* `C52_errors_fails` (Props/Iface.lean): C52 is false of the code: names of errors aren't filtered, so that the result may refer to errors the parent doesn't have and doesn't pass its check.
* `C52_valencies_fails` (Props/Iface.lean): C52 is false of the code: bindings of valencies are looked up by the names of assignments of the interface (`base.assignments.keys()`, /repo/src/interface/inheritance.rs:716), so they are lost.
* `C53_fails` (Props/Iface.lean): C53 is false of the code: an operation of the schema may lack the input which the parent demands, the metadata and the validator aren't compared at all: a schema with a transition without inputs (an inflation) passes as a child of `tokenSchema`.
* `C55_change_fails` (Props/History.lean): C55 fails for changes: an allocation at an outpoint of the wallet can be in no record at all. Here 3 at the outpoint 60:2.
* `C55_concealed_fails` (Props/History.lean): C55 fails for payments to concealed seals: what is paid to them isn't in the history. The transition spends the 10 the wallet had, keeps 3, and just 6 are reported as sent.
* `C55_include_all_fails` (Props/History.lean): C55 fails with filters which select state of genesis for the witnesses, such as the one including all: asking for the history panics.
* `C55_two_types_fails` (Props/History.lean): C55 fails for contracts with two types of fungible state: if both are received with one witness (or both are issued to the wallet, or sent), asking for the history panics.
* `C56_ids_fails` (Props/Batch.lean): C56 is false for `compose_deterministic` with any priority which isn't the greatest: no transition of the batch is listed with its id.
* `C58_miskeyed_fails` (Props/Indexed.lean): Ids under which a bundle lists transitions are taken for granted: looking up by an id may return a transition with a different id, and a transition may be not found by its id.
* `C58_shadowed_fails` (Props/Indexed.lean): A transition disclosed in a bundle isn't found if a later witness has the same bundle not disclosing it: lookups return nothing although `op_witness_id` says that the transition is there.
* `C59_armored_kind_fails` (Props/File.lean): Armored text of a transfer is loaded as a contract by `load_armored`: both have the same title, and the header with the type isn't checked.
* `C59_flag_fails` (Props/File.lean): A file of a contract may contain a consignment which says that it is a transfer: loading checks the type of the file only.
* `C59_header_fails` (Props/File.lean): Headers aren't compared with what is read: a text may say that it is of a contract, a transfer is read from it.
* `C59_overwrite_fails` (Props/File.lean): Saving over a file loses the old container when interrupted: the file then loads neither as the old one nor as the new one.
* `C60_failed_fails` (Props/Suppl.lean): A failed annotation loses annotations, also those of other items.
* `C61_reset_fails` (Props/State.lean): C61 fails: resetting a new iterator to depth 2 doesn't skip anything; resetting to 0 after having read two items doesn't go back.
* `C61_size_fails` (Props/State.lean): C61 fails: after one of three items was read, the size is said to be two, and the iteration starts again from the first item.
* `C63_fails` (Props/Iface.lean): C63 is false of the code: an operation which is required in a parent becomes optional when the extending interface declares it so (`self.optional.max(ext.optional)`, /repo/src/interface/inheritance.rs:608), an optional operation of the extending interface isn't taken at all (448), and the type of metadata of a parent is overwritten by that of the extending interface (362).
* `C64_state_fails` (Props/Usable.lean): C64 fails for state: the witness of a bundle was replaced, and the stock gets (without an error) the bundle with the new witness, which is valid; the assignment, to an output of another transaction, isn't in the visible state.
* `C64_transition_fails` (Props/Usable.lean): C64 fails for transitions: the stock got a bundle without one of its transitions, and later (without an error) with all of them; the transition which was missing can't be read, and its output can't be transferred.
* `C65_data_fails` (Props/BuilderAccept.lean): C65 is false for owned data: it is added, and the contract is issued, although it isn't a value of the type the schema defines; the same value is refused as global state of that type.
* `C66_operation_fails` (Props/Abort.lean): C66 is false: whenever the contract, its schema, the interface and its implementation are known and the wallet has the types of the schema, an invoice naming an operation which the implementation doesn't have makes composing panic.
* `C66_state_fails` (Props/Abort.lean): C66 is false: whenever paying a zero amount would work, an invoice which asks for no particular state or for an attachment makes composing panic.
* `C66_sum_fails` (Props/Answer.lean): C66 is false of large amounts: in a debug build, an invoice of 10 with outputs which have 2⁶³ twice makes composing panic.
* `C67_armored_fails` (Props/ContainerId.lean): The id written in armored text doesn't protect it: the data may be replaced by those of another consignment.
* `C67_attachment_fails` (Props/ContainerId.lean): The id of a consignment doesn't tell contents of its attachments.
* `C67_iface_fails` (Props/ContainerId.lean): The id of a consignment doesn't tell its interfaces.
* `C67_schema_fails` (Props/ContainerId.lean): The id of a consignment doesn't tell its schema.
* `C68_accepted_fails` (Props/Validate.lean): What the warnings are about doesn't prevent acceptance, although a validator which counts warnings would refuse: a transfer is accepted as a contract, an implementation under a wrong interface and a terminal out of nowhere are accepted.
* `C69_order_fails` (Props/Specs.lean): The order disagrees with equality: any two different spellings of a ticker are equal and still one is less than the other, so that an ordered set or map keeps both.
* `C70_charset_fails` (Props/Specs.lean): The charset isn't in the text: media types which differ in it have the same text, and no one with a charset is read back.
* `C73_same_name_fails` (Props/Pass.lean): C73 fails when the stock has two interfaces of the same name: a schema got an implementation of the second one, the transfer has it together with the first one, and accepting it panics.
* `C74_genesis_fails` (Props/Arrive.lean): C74 fails for state which the genesis assigns to the secret seal: the issuer's stock finds the output by the secret seal and makes the transfer, without any terminal; the payee, who has the seal, consumes it without an error, and has no state at the output which the seal defines.
* `C75_same_name_fails` (Props/Export.lean): C75 fails when the stock has two interfaces of the same name, and the schema got an implementation of the second one: the export has it together with the first one, and a new wallet which imports it panics.
* `C77_same_name_fails` (Props/ExportSchema.lean): C77 is false with two interfaces of the same name. The stock has interfaces 20 and 21, both named 7; the schema has one implementation, of 21. Exporting the schema looks for the interface by its name and finds 20. The kit has no interface for the implementation, and importing it panics.
* `C78_listed_fails` (Props/Shown.lean): C78 is false after a consignment was refused half-way: the stock, knowing the contract 0, gets a consignment of the contract 2 while the resolver can't find the order of its witness, and returns an error. The state of the genesis of the contract 2 is there nevertheless, but the index doesn't list the contract; a payment from the outpoint 50:0 is composed which moves the state of the contract 0 only: the 20 of the contract 2 at this outpoint are lost.
* `C79_converse_fails` (Props/Recover.lean): C79: the converse of `C79_state_partial` fails. An assignment was disclosed in two parts, first its seal and then its state: the stash tells of the operation with both, but the state of the contract doesn't have it. The state computed again from the stash would have more.
* `C79_state_fails` (Props/Recover.lean): C79 fails for bundles which came with more transitions later: the stock, which got everything without an error, has an assignment in the state of the contract, of an operation which its stash doesn't tell of. So after the loss of the state it can't be computed again.
* `C80_witness_fails` (Props/Evolve.lean): C80 is false for positions of witnesses: the state used by validation answers the position of the witness of any operation, the stored one doesn't know a witness whose operations have neither visible owned state nor global state.
* `C81_blank_fails` (Props/Issue.lean): C81 is false of blank transitions with two interfaces of the same name. The stock has interfaces 20 and 21, both named 7, and 22, named 8. The schema has one implementation, of 21. Asked for a blank transition through 22, the stock gives a builder with the implementation of 21 and the interface 20.
* `C81_operation_fails` (Props/Issue.lean): C81 is false of panics: asking for a builder of a transition panics, and does so exactly if all is known but the operation, which the caller gives (and for the default operation, if the interface has none).
* `C83_repeat_fails` (Props/Resume.lean): C83 is false when a limited set of the index is full: the empty stock accepts a contract with 255 assignments to one hidden seal; the process is stopped after the index was written; then the same contract is refused, since nothing can be added to a full set, even what is in it. What is more, the refused attempt removes all the 255 outputs of the seal from the index.
* `C84_full_fails` (Props/Again.lean): C84 is false when a limited collection of the stash is full: a consignment with 255 supplements of one object is accepted by the empty stock, and refused when it comes again, since nothing can be added to a full set, even what is in it.
* `C84_witness_fails` (Props/Again.lean): C84 is false for a consignment which lists a witness twice, first by its id, then with the transaction: it is accepted by the empty stock, and refused when it comes again, as a stored transaction can't be merged with its id.
* `C85_siblings_fails` (Props/Onward.lean): C85 fails for the other transitions of a bundle: a transfer shows to the payee a transition of the same bundle which isn't related to the payment, without its history. The state which it gives is in the payee's contract state, but can't be transferred.
* `C86_class_fails` (Props/Info.lean): C86 is false for classes and features: only the first supplement of an interface is looked at, and they are ordered by their time, the oldest one first. A supplement which names the class is stored, but an older one without it hides it.
* `C86_created_fails` (Props/Info.lean): C86 is false for times which the calendar doesn't have: such an interface is shown as made at the time of the listing, so two listings of one stock differ.
* `C86_inherited_fails` (Props/Info.lean): C86 is false for what an interface inherits: it's shown by the name, and two known interfaces may have one name, e.g. versions of one interface. Following the reference leads to another interface than the inherited one.
* `C86_schema_fails` (Props/Info.lean): C86 is false for a contract whose acceptance failed: it's listed, and its schema isn't. Here the Merkle proof of its bundle is refused.
* `C87_default_fails` (Props/Contractum.lean): **The default operation.** It is shown as a word at the operation: one which isn't declared isn't shown at all. (`check` finds it, `C87_checked`; but displaying doesn't ask for a check.)
* `C87_descriptions_fails` (Props/Contractum.lean): **Descriptions of errors.** A description is printed as it is, with its line breaks and quotation marks: an interface with one error has the same text, but for the id, as an interface with two.
* `C87_namesakes_fails` (Props/Contractum.lean): **Namesakes.** The caller gives names of interfaces by their ids, so two of them may have the same name; an inherited interface is shown by the name alone.
* `C99_trust_fails` (Props/Restart.lean): C99 is false of trust levels: setting one doesn't mark the stash as changed, so it isn't written, also not by `store`, and it's gone after a restart.
* `C99_written_fails` (Props/Restart.lean): C99 is false without a restart: after a refused consignment the next successful call, here an update of witnesses, writes the state with what the refused one has left in it. A later restart doesn't help: the allocation is shown, and its transition is neither in the index nor in the stash.
