import Verif.Conformance.Sha1
import Verif.Model.Metainfo

/-! # The unit test `multi_parse` of `src/transcoding/metainfo.rs`, run on the model

The file `resources/38WarBreaker.torrent` of the repository is embedded byte for byte. -/

namespace Nargun.Conformance

open Spec (ascii)

/-- The `k` bytes of a number, big-endian, in front of `tail`. -/
def spell : Nat → Nat → Bytes → Bytes
  | 0, _, tail => tail
  | k + 1, n, tail => Sha1.force (n % 256) fun x => Sha1.force (n / 256) fun y => spell k y (BitVec.ofNat 8 x :: tail)

/-- `resources/38WarBreaker.torrent`, bytes 0 to 4149, 50 to a number. -/
def warBreakerChunks : List Nat := [
  0x64383a616e6e6f756e636533373a687474703a2f2f747261636b65722e66696c65732e666d3a363936392f616e6e6f756e63,
  0x6531333a616e6e6f756e63652d6c6973746c6c33373a687474703a2f2f747261636b65722e66696c65732e666d3a36393639,
  0x2f616e6e6f756e6365656c34303a687474703a2f2f6f70656e2e6163676e78747261636b65722e636f6d3a38302f616e6e6f,
  0x756e6365656c33363a687474703a2f2f747261636b6572322e646c65722e6f72673a38302f616e6e6f756e6365656c33373a,
  0x7564703a2f2f65786f6475732e646573796e632e636f6d3a363936392f616e6e6f756e6365656c33333a7564703a2f2f6f70,
  0x656e2e737465616c74682e73693a38302f616e6e6f756e6365656c33313a7564703a2f2f6f70656e746f722e6f72673a3237,
  0x31302f616e6e6f756e6365656c33363a7564703a2f2f747261636b65722e646c65722e6f72673a363936392f616e6e6f756e,
  0x6365656c34323a7564703a2f2f747261636b65722e6f70656e747261636b722e6f72673a313333372f616e6e6f756e636565,
  0x6c34303a7564703a2f2f747261636b65722e74696e792d7670732e636f6d3a363936392f616e6e6f756e6365656c34313a75,
  0x64703a2f2f747261636b65722e746f7272656e742e65752e6f72673a3435312f616e6e6f756e6365656c33303a687474703a,
  0x2f2f676f6f6765722e63633a313333372f616e6e6f756e63656565373a636f6d6d656e7432343a5570646174656420627920,
  0x417564696f426f6f6b2042617931303a6372656174656420627936343a546f7272656e742052572050485020436c61737320,
  0x2d20687474703a2f2f6769746875622e636f6d2f61647269656e6769627261742f746f7272656e742d727731333a63726561,
  0x74696f6e2064617465693136353131323334323065343a696e666f64353a66696c65736c64363a6c656e6774686938333730,
  0x3933353565343a706174686c31353a576172427265616b6572205b30315d32323a576172627265616b6572205b30312d3031,
  0x5d2e6d7033656564363a6c656e6774686931303335343434343365343a706174686c31353a576172427265616b6572205b30,
  0x315d32323a576172627265616b6572205b30312d30325d2e6d7033656564363a6c656e67746869383736373232333565343a,
  0x706174686c31353a576172427265616b6572205b30315d32323a576172627265616b6572205b30312d30335d2e6d70336565,
  0x64363a6c656e67746869383337353832353665343a706174686c31353a576172427265616b6572205b30315d32323a576172,
  0x627265616b6572205b30312d30345d2e6d7033656564363a6c656e67746869383933323137313065343a706174686c31353a,
  0x576172427265616b6572205b30315d32323a576172627265616b6572205b30312d30355d2e6d7033656564363a6c656e6774,
  0x6869393430363338373565343a706174686c31353a576172427265616b6572205b30315d32323a576172627265616b657220,
  0x5b30312d30365d2e6d7033656564363a6c656e6774686931303937323165343a706174686c31353a576172427265616b6572,
  0x205b30315d31393a576172627265616b6572205b30315d2e6a7067656564363a6c656e677468693330343265343a70617468,
  0x6c31353a576172427265616b6572205b30315d31393a576172627265616b6572205b30315d2e747874656564363a6c656e67,
  0x746869383033343339383365343a706174686c31353a576172427265616b6572205b30325d32323a576172627265616b6572,
  0x205b30322d30315d2e6d7033656564363a6c656e67746869393139333330333365343a706174686c31353a57617242726561,
  0x6b6572205b30325d32323a576172627265616b6572205b30322d30325d2e6d7033656564363a6c656e677468693130303338,
  0x3437393465343a706174686c31353a576172427265616b6572205b30325d32323a576172627265616b6572205b30322d3033,
  0x5d2e6d7033656564363a6c656e67746869393635353335373165343a706174686c31353a576172427265616b6572205b3032,
  0x5d32323a576172627265616b6572205b30322d30345d2e6d7033656564363a6c656e67746869383431323838393965343a70,
  0x6174686c31353a576172427265616b6572205b30325d32323a576172627265616b6572205b30322d30355d2e6d7033656564,
  0x363a6c656e67746869353737303865343a706174686c31353a576172427265616b6572205b30325d31393a57617262726561,
  0x6b6572205b30325d2e6a7067656564363a6c656e677468693330343265343a706174686c31353a576172427265616b657220,
  0x5b30325d31393a576172627265616b6572205b30325d2e747874656564363a6c656e67746869383935393037393565343a70,
  0x6174686c31353a576172427265616b6572205b30335d32323a576172627265616b6572205b30332d30315d2e6d7033656564,
  0x363a6c656e67746869393831303636323165343a706174686c31353a576172427265616b6572205b30335d32323a57617262,
  0x7265616b6572205b30332d30325d2e6d7033656564363a6c656e67746869383833363038353765343a706174686c31353a57,
  0x6172427265616b6572205b30335d32323a576172627265616b6572205b30332d30335d2e6d7033656564363a6c656e677468,
  0x69393436313833333365343a706174686c31353a576172427265616b6572205b30335d32323a576172627265616b6572205b,
  0x30332d30345d2e6d7033656564363a6c656e67746869383538383639353765343a706174686c31353a576172427265616b65,
  0x72205b30335d32323a576172627265616b6572205b30332d30355d2e6d7033656564363a6c656e6774686939313130323436,
  0x3165343a706174686c31353a576172427265616b6572205b30335d32323a576172627265616b6572205b30332d30365d2e6d,
  0x7033656564363a6c656e67746869353539353565343a706174686c31353a576172427265616b6572205b30335d31393a5761,
  0x72627265616b6572205b30335d2e6a7067656564363a6c656e677468693330333865343a706174686c31353a576172427265,
  0x616b6572205b30335d31393a576172627265616b6572205b30335d2e747874656565343a6e616d6531303a57617242726561,
  0x6b657231323a7069656365206c656e67746869313637373732313665363a706965636573313834303aa8b44451013224c92d,
  0xc9105fb82904f6c437b5911480ce7efff1da771945da0ca8c0d1a4c6b451f44bbf1c679f978c1913b99305fd8814686fa6eb,
  0x89d432f49773cb9ccb734864aefbc373ccabc477b4a7659929cad3211fedabfc94760d21d7ed5404a79356fb6083103bd593,
  0x94df848b24d2e8385bdb2ceb62684fcd3b216275778ab4b02185c8e57ebe5f7a1cea3b871c332c4b3b2a5cfa4fb033e6f6ec,
  0x319bef4d74105a22dc92e464c51d2069026059c0bb6aa40f8b5e65685dd4bf3c22daa1715bb5a27158d8fd179f653b5f0f70,
  0x58c5ab7b6e4a912dae2f365f67077326b3f94d4d448328dbd0a9b84130905121799aec07554f0f673f18a4c668a8babe3860,
  0x851d94022e49f8da3c1865b82a710c1ae6cd9c364b8ab6323507a45072972eaf7962107f438ed3ba09e484789bad594ead44,
  0x2c15ca73db54c56b25337a5a2a9685f6e575da09b9a98a109cb954983dec7d6fef4b86f34fd45fee055ddb62524b9ac28737,
  0xfba37e92c77b551893ca9666311f50d97a426155607e63bc2df7f96a8ad7f3b3670933ce616cd1d0aa471f569a1854cab8ba,
  0x09ca6806a4f58d027e6fcb9eadd081dec9012b2510ba7704cde0949d888ae897b97f89d10c404a5f882525fa89bef493e09d,
  0x7957a03a27881151125a003828ea71c4b8f041b4a584fee5130432cacd086280673c266b33857ebab0f8e7d0514709c62f95,
  0x465a7f6594e735f55d721b0bff725480d0d96e63d0608773e6ba0e796d7e3a6153bce9611201045323753db38dd92fb95787,
  0xdb0a218327bc0d77cd39e4550f25707b733844b8db3bcaa4fd8b6c1b2f7563d3290d5307e3c4917576d1cc425e3c59824b02,
  0xd4809dd6c9de32461b6ca1f740e82a699c84672b15a8e089f371c643bb7c18977b38601bf0cc80185720dd0d947df8a2bcc6,
  0xfa61f31d82b7eadd5259280bf0ebc03c19b88342bae7aebeb7408f065bbd241a2f3e33a7d300c8359bbffb0b546721321866,
  0x68b5dfa8404a8b1d1f3729d43cfd792268452ec33f810cb0dffbe1cd0cc6133b3e69f9170d852985b2cb64b30c53ff90c493,
  0xe130a76360a95ddbd88630276b2dfd6821161be14019275a3014bec0d2e686224857ff22b04f5be48ad759ed4ad7e75081f3,
  0x5b51c1ab799c42fd80d7d8a321ae74fae46b135ecf95b06582027fca4748a3acb1c79304cd425aa4f6bd01fd51064f306960,
  0x894b9d7224fa23389a48a5dfe0416a267f2e9ec392bed74a2bf5d388fad6c6465663da60aa4d9c8106400c88cd339b1fe00d,
  0xa7e80082d8d7f7ea25f15b3c1404969758f42867c14d4f800d8835aa26d65c3df7085b1d6a6ea9247953c2967ef6ed21d045,
  0x05024899b6690d07c5a77f20fdcf7da4ce79df5de9cd7419dca0a869c48ea851ac99f8b9ea3b54fd7ef7e373182cceb9f05f,
  0x34f78f854e91ca4027bd08014d458175a634adedb7360736d61a2c8b4344f23bbdca7199b07d6937ab6b9dede877a839b878,
  0x2373bbba9bcd5f72c0305289ffac5b3e2866f9a239cf0dcec451b9d72a922b58cd8d3f31ba8ee1931f3643a6b99c33f2b84e,
  0x21594df666bffc9deec0eacfdfd09b25940379a2da172861bc63822ff5130ebfd25ad051d2f4d7025c837c8c00333387d14a,
  0xf6164b25cd49265593f24ae532610d0d2352c178644fab43ccaa98b87d6eb066e0c1f4ed4e9550bab858bbf059ce0110e797,
  0x8ffec8089561bc859b9b603d0fb909e714633fa21a5adcc859223d24441568c775d98ba18c6953a0adceedf30abfd375ce38,
  0xc3cbe6b1253195d217f7b1ec2650131e956fae2a40be357a0fac721a7dfaee86ce19fd1ede67d0620199c4489c798eba9e02,
  0x53109b3646de1f1b84d7b13aab80fa5593d9343b72e713f4eccc4d255ca3fd47e1f85f44e34035692b2ecb855f61784a78c6,
  0xc19d9910540e715c2914d412060a65c17b434241bb744a63e14d5924d3aea7ed8e07b4be1a30a0843a169bd303c920e3bec7,
  0x39039b0cec9b8214303fb1deb259aa369f5518db57906861700322216fa8b249d98a7f9f819a65c267c3298023257b068a72,
  0x4224e3ac8bc9e7cb0e9f997703c436645c957e89b37fddc975cd489b1d3b166c4d4db49182dbb15ed8d4d5f17b7f5b8cc434,
  0x0e5869904f87693cc69094d38c7e1a0e62ccc49289487f500c8a4c1d705cbd3ff3039d1c211f12d542d9979a2c8a96a19d1e,
  0x480e9e5f8700e687c8252d99f357efeb1faa04f3e77aa86248d5064603a39e30578bdd08bb973ace41f760507656eea1c213,
  0xf1ed01eb9a6e0be0bac3c2935ec6f15a2cd1eb532f4db18321a1497c63231ddfc4ee59d68f9119f229609174fca9c09f7876,
  0x441ee338da287b8ebb1f88d0ac5142cb704580917ecfbe8f5ceff20fa961ee59e3bfa9576235429b1449d2ff2f5b85d073ba,
  0xcd4a2d6ec5849f5ae3053964bd6a69723ab2521d32774998a611505c779a37c024a3926b11304746b15ecda12de3cf008265,
  0xfe654dba002e4b482bdb0759b1bf6719352f17686ff41172e00494e3fcda535ebb0996a0120b42dcc4e95d28586e8b18a102]

/-- `resources/38WarBreaker.torrent`: 4183 bytes. -/
def warBreaker : Bytes := warBreakerChunks.foldr (spell 50) (spell 33 0xd830a17dc91414fc3ce7f6f8b2297c6c30806735a05a16123bd5ceb543ea1a6565 [])

/-- The file, read by the model with the real SHA-1. -/
def warBreakerTorrent : Res Torrent := Torrent.fromBuf Sha1.sha1 (fun _ => true) warBreaker

/-- The file is as long as in the repository. -/
example : warBreaker.length = 4183 := by decide +kernel

/-- The pieces the lengths of the files call for. -/
def wantedPieces (i : Info) : Res Nat := do
  let l ← i.length
  unsignedCeilDiv l i.pieceLength

/-- `metainfo.rs:424-458` `multi_parse`. -/
example : (match warBreakerTorrent with
    | .ok t =>
      decide (t.announce.length = 11) && decide (.http (ascii "http://tracker.files.fm:6969/announce") ∈ t.announce) &&
      decide (Sha1.num t.infoHash.bytes = 0x5552087ec19840ace8795af93e137d2bd71450d7) &&
      (match t.info.mode with
        | .multi files => decide (files.length = 23)
        | .single _ => false) &&
      decide (t.info.name = ascii "WarBreaker") && decide (t.info.pieceLength = 16777216) &&
      decide (t.info.pieces.head?.map (fun h => Sha1.num h.bytes) = some 0xA8B44451013224C92DC9105FB82904F6C437B591) &&
      decide (wantedPieces t.info = .ok t.info.pieces.length)
    | _ => false) = true := by decide +kernel

end Nargun.Conformance
