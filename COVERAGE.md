# What of the source is modelled, and where

Line by line: functions of the two headers, the definitions of the model that stand for them, and the properties about them. Names are relative to
`lean/Verif/`. `Machine` operations are constructors of `Api` with their meaning in `userOp`, and program counters of frames with their meaning in `run...`.

## signals.hpp

| lines | code | model | properties |
|---|---|---|---|
| 35-36 | `not_comparable_exception` | result `none` of `Callable.equals`, `slotEq`, `eraseScan` | C06, C28, C30 |
| 42-52 | `to_weak` | a tracked callable has an `ObjId`, whose owners are counted (`World.objs`) | C16, C17 |
| 61-415 | `detail::traits` | only the decisions in `Data/Dispatch` (`memRef`, `trait`) and in `Data/SlotObj` (`Ctor`, `pick`) | C48, C51 |
| 417-438 | `try_equals` | `tryEquals` | C28-C30 |
| 443-452 | `invoke_helper::call` of a function object | frame `call`, program counter `body` | C07, C27 |
| 457-500 | `invoke_helper<Type Base::*>` | `Data/Dispatch`: `get`, `call` | C48 |
| 511-558 | `cow_ptr` constructors, destructor, assignments | `Data/Cow`: `step`; in the machine `cloneBlk`, `runMov`, `setList` | C18, C64 |
| 560-626 | `operator*`, `operator->`, conversions, `data`, `read`, `write` | `Data/Cow`: `Op.read`, `Op.write`, ...; references that are kept: `Data/CowRef` | C18, C64, C65 |
| 628-645 | `operator==`, `!=`, `bool` | `Data/CowRef`: `rstep`; `Data/Cow`: `Op.test` | C18, C64 |
| 647-656 | `detach` | `Data/Cow`: `St.detach`; machine: `detach` and `clone` of `CritPc`, `ErasePc`; `Fine`: three steps; failures: `allocFail`, `ctlFail` | C18, C20, C55, C61 |
| 661-671 | `make_cow` | as the constructor of `cow_ptr` from a new object | C18 |
| 677-754 | `slot_state` | `SlotRec` (`connected`, `blocked`, `index`); copies of it: `Data/SlotObj` | C03, C04, C12, C31, C46 |
| 725-728 | `slot_state::disconnect` (exchange) | `runDisc` at `exch`; `runCall` (tracked object gone) | C03, C04, C16 |
| 758-765 | `slot_impl` | `Callable` | |
| 768-839 | `slot_func`, for `R` and `void` | `Callable.func`; `clone`: `Data/SlotObj`; call: `runCall` | C07, C28-C31, C37, C44 |
| 843-925 | `slot_pmf`, for `R` and `void` | `Callable.pmf`; as above | C28-C31, C48 |
| 930-1045 | `slot_pmf_tracked`, for `R` and `void` | `Callable.tracked`; `slotConnected`; `runCall` at `lockObj`, `recheck` | C16, C17, C28, C30 |
| 1052-1078 | `integer_sequence`, `make_integer_sequence` | `Data/IntSeq` | C45 |
| 1084-1212 | `slot_iterator`, for `T` and `void` | `Data/Iter`; in the machine `EmitPc.iter`, `Api.combDeref` | C27, C37, C45, C59 |
| 1215-1239 | `slot_base`, `signal_base` | none (abstract); `m_pSignal` is `SlotRec.owner` | C24 |
| 1249-1409 | `slot`: constructors, moves, `bool`, comparison, flags, call | `Data/SlotObj`; of listeners: machine | C31, C51, C28-C30 |
| 1304-1312, 1290-1294 | `slot::operator=(const slot&)`, `slot(unique_ptr)` | cannot be instantiated | |
| 1352-1361 | `slot::disconnect` | `runDisc` | C02, C03, C17, C24, C67, C70, C71, C72 |
| 1420-1476 | `connection_blocker` | `Api.blockerNew` ... `blockerDtor` | C13, C14, C67, C73 |
| 1480-1559 | `connection` | `Api.connCopy` ..., `disconnect`, `block`, `unblock`; `connValid`, `connConnected`, `connBlocked`; `Api.pin`, `Api.unpin` for their local `shared_ptr` | C03, C10, C12, C24, C41, C42, C49, C63, C67, C70, C71, C72, C73 |
| 1564-1614 | `scoped_connection` | `Api.scopedNew` ... `scopedBase` | C15, C67 |
| 1619-1638 | `optional_last_value` | `Data/Combiner`: `lastValue`; `deliver`; on references `Data/OptRef`: `combine` | C08, C56, C58 |
| 1658-1662 | constructor, destructor of `signal` | `Api.newSig`, `Api.destroySig` | C22, C23, C66 |
| 1670-1687 | moves of `signal` | `Api.moveSig`, `Api.moveAssignSig`, `runMov` | C24, C25, C66 |
| 1689-1748 | `connect`, `connect_scoped` | `Api.connect`, `runAdd` | C01, C09, C29, C55 |
| 1751-1778 | `disconnect` | `Api.sigDisconnect`, `runErase` | C05, C06, C11, C29, C60, C71, C72 |
| 1780-1792 | `operator()` | `Api.emit`, `runEmit`, `runCall` | C07-C12, C19, C21, C26, C27, C38, C39, C44, C53, C56, C57, C62, C70, C71, C72, C73 |
| 1798-1805 | `add_slot` | `runAdd`; by statements: `Fine` | C01, C20, C43, C46, C61, C69 |
| 1808-1820 | `remove_slot` | `runDisc` at `crit`, `removeAt`, `Vec.swapPop`; by statements: `Fine` | C02, C20, C40, C43, C46, C52, C61, C69 |
| 1826-1849 | `erase` | `runErase`, `Vec.eraseScan`; by statements: `Fine` | C05, C06, C20, C40, C43, C52, C60, C61, C69 |
| 1851-1855 | `clear` | none: private and never called | |
| 1858-1862 | `read_slots` | `runEmit` at `wait` ... | C09, C19, C20 |

The memory that these functions read and write, and their synchronisation, are in `Memory` (C54).

The combiners of README.md, the examples and the tests are in `Data/Combiner` (C36); the tests and examples themselves are run on the model in `Conform`.

## optional.hpp

| lines | code | model | properties |
|---|---|---|---|
| 1-126 | tags, traits, `bad_optional_access` | none; result `badAccess` | |
| 128-505 | `optional_base` | `Data/Optional`: `construct`, `destroy`, `assign`, `assignOther`, `assignVal`, `emplace`, `ctor`, ... | C32, C33, C50, C68 |
| 508-734 | `tc_optional_base` | `Data/Optional`: `Sc.step`; `Data/OptKept`: `Sc.load` | C32, C50, C68 |
| 736-753 | choice of the storage | both storages have their theorems | |
| 755-1036 | `optional<T>` | `Data/Optional`: `Op`, `step`; references that are kept: `Data/OptKept` | C32, C33, C50, C68 |
| 919-923, 1621-1629 | `swap` | `Data/Optional`: `swap` | C32 |
| 941-949 | `get_value_or` (gives a reference) | `Op.valueOr`: the reference is read at once | C32 |
| 1038-1129 | `optional<T&>` | `Data/OptRef` | C58 |
| 1131-1203 | `optional<void>` | none: no state | |
| 1211-1392 | comparisons of `optional<T>` | `Data/OptCmp`: `oo`, `on`, `no`, `ov`, `vo` | C34, C35 |
| 1393-1536 | comparisons of `optional<T&>` with a value | `Data/OptCmp`: `ov`, `vo` on the value referred to | C34, C35 |
| 1538-1566 | `make_optional` | as the constructors | C32 |
| 1568-1618 | `get`, `get_optional_value_or`, `get_pointer` | as the member functions | C32 |
