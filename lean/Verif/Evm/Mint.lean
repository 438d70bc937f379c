import Verif.Http.Accounts
/-!
# The accounts with which the EVM starts (C106)

Model of `put_row` (src/parsec/util.cpp:195-248), of `mint_initial_accounts`
(src/parsec/agent/runners/evm/util.cpp:101-144) and of the part of `main` of an agent which
comes before it serves (src/parsec/agent/agentd.cpp:82-153).

Simplifications: a start of an agent is one step, no transaction is executed while it
takes place; the rows which it writes are those of the accounts (`Holds`, `C106_row`).
-/
namespace Verif.Evm

open Verif.Serial

/-! ### Writing a row -/

/-- What a request to the broker comes to.  Simplification: a broker which refuses does
not call the callback, and none calls it twice (`C47_late_answer_violated` has a broker
which does, after answers that come late). -/
inductive Call where
  /-- the call returns false -/
  | refused
  /-- the callback is never called -/
  | silent
  /-- the callback is called, and told whether there was no error -/
  | told (ok : Bool)

/-- What the broker makes of the requests of one `put_row`. -/
structure Row where
  begin : Call
  lock : Call
  commit : Call
  finish : Call
  /-- whether the shards take over the update, should a commit of it be asked for -/
  taken : Bool

/-- What comes of `put_row`. -/
structure Put where
  /-- what it returns -/
  started : Bool
  /-- what the callback is told, if it is called -/
  told : Option Bool
  /-- whether the shards hold the value then -/
  written : Bool

/-- `put_row`, src/parsec/util.cpp:195-248. -/
def putRow (r : Row) : Put :=
  match r.begin with
  | .refused => ⟨false, none, false⟩
  | .silent => ⟨true, none, false⟩
  | .told false => ⟨true, some false, false⟩
  | .told true =>
    match r.lock with
    | .refused => ⟨true, some false, false⟩
    | .silent => ⟨true, none, false⟩
    | .told false => ⟨true, some false, false⟩
    | .told true =>
      match r.commit with
      | .refused => ⟨true, some false, r.taken⟩
      | .silent => ⟨true, none, r.taken⟩
      | .told false => ⟨true, some false, r.taken⟩
      | .told true =>
        match r.finish with
        | .refused => ⟨true, some false, r.taken⟩
        | .silent => ⟨true, none, r.taken⟩
        | .told ok => ⟨true, some ok, r.taken⟩

/-! ### The accounts -/

/-- The account which is written, src/parsec/agent/runners/evm/util.cpp:106-111; its nonce
is that of `evm_account()`, src/parsec/agent/runners/evm/messages.hpp:27. -/
def initialAccount : Stored :=
  { balance := mul (.ofU64 1000000) (.ofU64 1000000000000000000), nonce := .zero }

/-- An address as a number, of which the most significant byte comes first. -/
def Address.ofNat (n : Nat) : Address :=
  ⟨(List.range 20).map fun i => (n / 256 ^ (19 - i)).toUInt8, by simp⟩

/-- `init_addresses_for_testing`,
src/parsec/agent/runners/evm/init_addresses.hpp:14-270: each text of forty hex digits is a
number here. -/
def initialNumbers : List Nat :=
  [0x01a151cc5ed14d110cc0e6b64360913de9f453f1, 0x13333383a6c55d9b699c4d57e3b0c85759f0efca,
   0x9269d13036f74f5e7c1560b2daad6181fb71e682, 0x3b650fec738a382faefd33214032208cfa7c385d,
   0x7317ab9676358bebb532a3e516c3df234ca2e971, 0x7bbb25c8943e1f63f1006774f2a1b8ac6000a3fa,
   0xb0acc7ba38e5de0bbbd327bd393cee7b7cb9bc6e, 0x1cde475afa287f31be1406d7916af1d5a3a53f2d,
   0x4a7eea7c8b0c84ffb713a80b9e01287097ab4e8f, 0x7ceaeb58a91bed44df0c481d6c87002d02062784,
   0xa24cb527f3c809aad612d5dc936ef89b53d73691, 0xfc3a3557607c5116dc50214934ada3b64b9e2c91,
   0x17af535dc59254dc5f7e93c9ddf93ea474ef4f51, 0xb1d9fab3eb400fe6d8b697348f74a882d95a3d9f,
   0x3a43eaff0fc27340fe359fa050b37cbcad2d0819, 0x5363537f061852b523096fb270d6f306a5e7c5dc,
   0xdf62effecb7ae5549bf396ec6f709aeb396fb6e3, 0x21b3e1752642be53088e88fb2eac41e351445eed,
   0x73b3c0d4bba7335570205ada2e8719fa1c531905, 0x0d8d34754e3d98d4c225274be5b044e2cf2e4cfc,
   0x40c3bf374d46912c22af79d565b54fb2bd8a3e42, 0x0d98d4d22175637d843fe4f6acbba9e06eed07e5,
   0x7ca73c6ba1f4772929d9927d7e063c03de7f9667, 0x5fab15df18e1e32c1167a4cc59c39a9db534bcb5,
   0x586095642688096ab7581822c987912782407cad, 0xa53461652dbb9ce608bda49a24f4e8ff9e94151f,
   0x7e1461fbce872c88213dfd1064393afdb501c9be, 0x5761576a72dc137b28a4c094c69abc306ce216df,
   0xe8001d9260f50f9ff82e451e0dbe2203c769e5d7, 0x475c2365f910162e5612b091555450917630ffb4,
   0x92c07eebba51c757f540efe04e81d5298e674aa7, 0xe02d5f9e8caef2cde612bfe80d4480441df366c7,
   0x0a33cc5d1a4da1a6b08c909c4a26816416bd5f53, 0x2896ba90d03b838578a453b8bd3bf9cd8ff09853,
   0x2d89426a35e5feb57ef9c5a6e4596a465d277e39, 0x0e21c55119b68b39dcd6cecb7108ca40e43f4fee,
   0x65873594edc9138be00b250ea296f676db219bea, 0x7629081e5739ee4c5c3d23ac8c35391a4350a064,
   0xd109387f1a1b7c1a80987e98cf5484ae79ed48d9, 0x2e76890d7d97576831d1da501265268b5c8b85fb,
   0xd3e213c763a98541d07e6f0290e5887638ee899c, 0x3632dffeb4fc81cce83a74ccc1dc928cffa3cecf,
   0x521edd58fea2aec553db5b2d40eded082689f38d, 0xfe92ff826f348acd2e1454e7d83c0d2526226228,
   0x63b43b3c0db9a4198a9c6d2ffdcca4a076507f9f, 0xe47c09a29385eae2413876822b1e977985dbdcbc,
   0x1cf9b3fbf3da5ffc65c46f9f1f56caecbf1a97bc, 0xf1f9a11253f0d993502211308db8e703e0db0d0c,
   0x22f9d83f1df7b9420337fcce176a4f56565977d1, 0xffb77e56dd58e3ae0303f2416f3303f37d48bb8e,
   0x0471e1237bb1813d6cef674f1660f0140a3ba248, 0x5044fb73a550b1867373aa5c0386732b5aaaaf9b,
   0xefe92b2d392afe20fa103c12a913f337e451ce96, 0x3187b473900d79ddc0b4c466460392cffccf3f9f,
   0x8cf8361bc973b7857ffe80b4ded91e89ca8679fe, 0xc76103a51991e96db97c2cfd10fe306dba79d504,
   0xce404507106f1633daa7493e9d7bb992df79f5f6, 0x2c5a9173ac6aaec35137bba82bec2dd1c393ccb9,
   0x0897be1a71774dd2c80c4203133917fa8aa679aa, 0x50eba548fb628a0740ac542c64a1fe3d20e90c3d,
   0x18d8e431f526f51176d67db2c48ac844f561f1a6, 0xa5ed6aafa34b4fab987320ff8aa1416de6cac640,
   0x1ee3e4ceeae2a84d8a6153a0857c598126fc7de2, 0xf4912c7fb2a91ad7b8bb1adccd442704481c7ed1,
   0xc7a4d7ba75edde649ef454d0e925e3eff99ffed2, 0x7058502bf260f051b3f3ab4b750d79cb96ffc9d9,
   0xc84212ae079e165e7d1588b356a6b8d756215776, 0x2dd4f96ce4554f4b039fee6b33947bab174affc1,
   0x5237757ca9fbfc4fde263f4c23d9f791907b9af5, 0x8ea3429a72afde850d55bfb35ea26f9e969752b3,
   0xc039ee9cca0b91ba63527c85573296c3985d3921, 0x4504390872e58f2ec3b0228b03b36d3273bf4022,
   0x3b91a0abaf1f82a3e8d3b50abd300a9543addf7c, 0x0a0625aefbe0ddc23bad7077132aba546a64f59b,
   0x6cf77bccbf86def1db0e03309bd8fad366d341e7, 0xbab953f428556a1006c96821a4c02df3d388d63b,
   0x8eaa6879e644b38d3044aabeef73fa0dfc5f6a97, 0xe57313ae0ac44a5edc414f8bfcaea75772aa8860,
   0x5b071d599ab33849295d753aee7e526e2e2b6773, 0xf3b21fe5810b751673e5ae5b36a34233b4c0fc88,
   0xe62904313326af40327a6f46ec1dd17178cf93f3, 0x1dd509d42789d94d41c47a6e62b7ba61bf3a6fd7,
   0x3a2970c1733a1145dccf455f3157b9757c624d46, 0x487c0b85c8a85dcedaca6255fa2d0ef43f2fda3a,
   0x7e7e7a85dd15c836ffd554cdc9d09185fb24e48d, 0xb3d4b957a6bc0cbb2c47829f9e01bc3abe4e6900,
   0x70eb87ae55a0f2afcaa31fd74d0a4684291c99d6, 0x8048d7772f09ee8bca526e56f23a958e05c65e4c,
   0xc115c1d64d0647102c44de8e40bd3300314b5187, 0xa78a076ac292839dd3df0daacbd5d9daf641673d,
   0xb4b249a5863ef40a39db333caccbf784a2d31b0e, 0x0a1a78134de31a631ae38945f3c2eba2b54b44ad,
   0x8ccd810fe57d970da3d99b8d40436c3961ab0aa2, 0x45198ee8c0fe3b8a8ff37679d73d23157e194095,
   0xcaf1c14330a6732e4845ff7bf9c87fb0d46eaad2, 0x03291301222e88c81440c3edc318a7f79fa732ff,
   0x73c067e2a125d766c1670a6441d2e743e69c7d5c, 0xfc99856ce083f26ef2f31af42ab6877b3752433e,
   0x2172eedf502307625ca5cce5d959335a88ccd36f, 0xf1ccf58db4706b9f9daba6308940585038769ba3,
   0xbae126583433f8a1b3cae74d8f1094ad94b1de88, 0x026ea39758b3376fb1c00d7ab97e80f52c10218a,
   0x13f67dab46e275969b2e6c3ca710f76c95a1553d, 0x8b881f5f00b2ef29fab0924a6fdad4d4114d5301,
   0xf0d77eb1a82e81522c3d24bc48c00b3d3f06df78, 0x72e8ebb84811860368d010116c0a68a0bc2d7d08,
   0xb63cf21a134f8f57e6d5b527c86fc531d82c2eb3, 0x1903b6621e7aa937c8132003af90439326cc5315,
   0x04defe3651cf8029a5d68726e38a957e12af83ae, 0x1f044e2133244cecace130195459ee9e2d99b6c2,
   0xcc557c67f53a4b5bfb7f7c0d6c1ccddf02aff8ab, 0x15feab1c525a84d039353abe98a6074f3cb4bdf7,
   0xbaec3d0e3ddbb6bc95e773012fbc57ca3d5d418f, 0x49814802a44d728b276122c98b96ed216b90c9d1,
   0x14eb525e9be8cd8795b694c217d28364df4921b2, 0x270bebb659a83be892d88a6ae4027218af2e351a,
   0x3f2eb59460fb28e5f973fc7d1a9af5c96fcc2b1f, 0x8191d186ff8c9b68e18420aae784ec17e07b0c87,
   0x920e50afa58ef03d7b7188695b6c1f97a0243c5f, 0xfebeb1f63dca014b6e3869faa2799539cb86dcff,
   0xcd50f9ada7662cd057597f561690669e7034ac48, 0x6f72174616fe23c392be0ef1fe1ddebd74d07309,
   0x247044e40232f05ab7516759b67007f8443e3975, 0xd9448cfa9638c505b3a67373fabd3d2b39296398,
   0x3557ff5a93e1086916d21b082165d292403a844e, 0x3f6c171f847c66009f6dac5710334ef5e6fcd0bb,
   0x87cd4e4288d921e8ee3bbeb3be02e6c975abb16e, 0x70b916988b565902a86f41452aeb3b0dcd84df0f,
   0xf4b85a86ea69512ee6b2e9ab938d7130e6419db1, 0xd2da5d7535b9067ecdd8b26b073f0a09ccab5943,
   0xc0b6c6a1add253212fd1d9147b0ddcb3f2bcf51c, 0x64afbd4c541771666b652f50e7d3b6947d2f1818,
   0x437058a212d69dc90414a400557a5fa0b3ca3d56, 0x4ecba211b7722ad0790d69e2532e9139cc979d0e,
   0xbdf885903a813771bf144a2b51121cd9aa9c388e, 0x21dea4c8b67f56c9abfa8a4d7b4aa8ef18b24c51,
   0x86d07af956ce99fd01266b31a262ffdd09b65c3a, 0x1d99814076bf65b9b0ad04fbe969efa4f83a46d5,
   0xac7ecd24f49613b7d6b5dc40deb5c8902dd65c58, 0x44b36ca94f328ac141999954ff1327d71aadc0a1,
   0x88a768ef8c6832659353b4b5dbbc092cd0bc11ac, 0xc8f3c93c87c9c2e810b50f56cca4dd42333d5f95,
   0x46b363e8c733861eff5cea98e74118f824bb38e4, 0x7130f9f035e777dd01a1120297d4910f388516e2,
   0xdbd81839680ede293106028de26801ae52d02d94, 0xef17f42aaf2c1196c30378b038a82b8a6133c0af,
   0xb69880a87f426cbe58e08fe7e51d967b822e32c6, 0xb698b35b16468ec3e2195dd566760c6ff8bffb47,
   0xb10839cc20ef9a92906ea74493c8485991ff6db2, 0x3ed9aa9377fbbde1abe6a69a1d466e34f82eac2c,
   0xb64e7e3dc9e2a73fba83b20b917e0db60fb6a00a, 0xf25ed2fea46ade2142b9ee5241b273692a4cd5d9,
   0x89389bca189666d82a813258e74e887f4c8ee4c4, 0x7a8abfee7dc6f9c329245766ff001c90187c772b,
   0x9d1cdd9dfdccedaa2971dc83ebe0a657efeb2bc5, 0xb32de405d17f0a621fcbe33e8a1b1a20e518ef8b,
   0x69bb5092acf3298c4e5d51b5fce3dd7a42d81b12, 0xefb812e8153517f11fdff8144a19471388b245c5,
   0x6aaeb54a0fa9c51448962a721fbbd58783feac17, 0x5074997e4a5f41e641060a644827eb3e60ee6fbe,
   0xaac2097f5bf0cb9083081a964a2eda22032fa602, 0xd0037a750cb8428f7e776c707de555bec81727c8,
   0xb17db8737ebb7ae6d039ae72f6350acb8e935637, 0x3147e9cd8b13d614d5d898de3e25ce1bbac9accc,
   0x0570cc778e30d2e046497de57d89eaf9270f8d06, 0x89203d0b8a5666885668a9b41cc6c6976badf7dd,
   0x15d7d8061790df5ebf3c69a984a0824762766ae8, 0x09a69a1baa46605be74cd6eee4c25a97681202f1,
   0x593b0dbe84239ba56894d92f6469c579f6bd0692, 0x6b2e12283fbfe49e0fb3a91b4bfd2f98a3e0dcd0,
   0x60443b1e1d4766e872605dc9bb2bc2da70cc35c4, 0x32008dc3bef1c08ed158df7aee73bf20bcf84a05,
   0x440ee141167472a66fbda2f113b0dd437c6861f1, 0xedd6e2919042f51ba1275e642e91a0d5b95de11c,
   0xb1667499a5a2f68674f87d3bdd3f18dfd49bcffd, 0xd224ada0a6b6b839760b93a5337721d2c4aa505e,
   0x65355484048c019406ed3948f17d86851fb4ac02, 0xdfdf9bd35764d4b834f3779b4c196f7579a3bd56,
   0x9f7ec78436ae7d2c8aee834f5a181e3d9bc777dd, 0x7f7e2514d63925e9348cf830e2f17a4260efa4d2,
   0xd279e2c0192698e91d761afc6582c071242d1681, 0x1280859ff427126b189ddede33509c428a74c6ff,
   0x192d48a5084b338b70182f07b4f0a2f08e302b5e, 0x1b6124ead463c35ed57aa32625861adaa25445dc,
   0x4af357ffe427dd2cac710b9f74074ef39b98516f, 0x588aadea1ad771d10c77ca3592cb5cd021d060f1,
   0x2691d9496717460538959c000d97b495ac577861, 0xf16e151ffdb4ad861b2aa55f82d4b5f8ff20078e,
   0x58efa8015678055e707f6e3c31f9ac359ec45a59, 0x253dddf67edaf7bb3af3bfd09d027273696206e3,
   0xd6442735650b8f2c755a445ef9a5c3f74ad4a1e8, 0x3c93c08ff0918398aaec0ed4272727fc995f5e40,
   0xc603d91e9effe2f45a5af7bafbe820baaa0887b4, 0x2998eb01fcc08043a0a1b450479a1b9e82a3faa0,
   0x667557371b344d6e765662464276f0d9e757d7b5, 0x19b7eaceef0dd05cbb4a1bdf33f9c91da84cd220,
   0x1dd4263c5fef3422463b18f9b07bbb6e0c4a8204, 0x99b7754bf87c1d240a20fe1b8df15726333f2424,
   0x6ed8adf62427f659aa2637693c20d3e0725476c4, 0x342908444c1137cad68f9334c347d36fcb9a8afd,
   0x6e3ea54f8405c9b2e5f4675bf4f935ee3038223d, 0xc327f7d85f8690539293d7b658baed2f610eed73,
   0xf7356ada7624c159361f8b115d43efc8be51c575, 0x8de4a864f7cd63da7352dbae3ddafd299ce3539f,
   0x80fdc23333824ca0979aa4d8cf68886c2a0f869b, 0x8402ed47b8fb835d6c56d7982e7702ab8d00fec9,
   0x70575bdda4bf823637ce11ce2885118828ed7cb8, 0x12fb4daf2c809c17b0ffb4bd4703718a06f7930b,
   0xed4ab59c7f2b9fa5a642d462ccea62374d9498f3, 0xe0fdd460a2e210f99011d57bacc95ac88b86f83a,
   0xd677c77059ee7efd7c5a6be185b8d45423d6630c, 0xdde8771e39fa01ed629b68523df4444e8476f6df,
   0x4785fce0517602fd72f6db0915f71b9b81f5362e, 0x422ed2172b8931b42ff284d27eb12575864c8130,
   0xf9daaef37710ca4f16053b9e11ee82e7c5494f6b, 0xc625f97235b8380fe9e2bcf7647487a47a963cad,
   0x165095b87188dd6fda05dde6b50c80a55d8fe0d8, 0x42e320e6128727a4b450e490318ca7ebdde84a07,
   0xf7a7058b9c928b36d93acfa028af8633d47dc3dc, 0xeec1c9c5fd44d1fe1205119078e7b4fff50f90e9,
   0x139ef604ef658c8e5ac756c301379561855fd74f, 0x33749256d59cf415893143351f0d07ae83d196e6,
   0xd70644f8aa1e5cf185ae11b3ee2a5c22b20d7c11, 0xffbb26834c33e3c6bc9146227af4ca02cd49e3ef,
   0xef42f87ca52867d30b7d6ba9de5ce74d5031be9f, 0x2caf4f98747c13e4ceaf3a9a6d7ca13fec7139b9,
   0xd33cc683905132df0e4513204c376d900dec7193, 0x0b0e1d13a93dc389dd9131b6820ca78ee8201dcc,
   0x57c406550d571701e5f0a752f3a22436ef055fcc, 0x43ca4df5cc471b0c149effc832519d376b41afe2,
   0x296146f1f2367c6bc2b5740a76a9e0e633463b68, 0x5b64320c8a90f1e714cc13eebed9c5c37a4745ee,
   0xe4e388ff7a8f5fd84985cd1e6557be718c08ff23, 0x929d303b632fd19e28753e96d320810511af7b76,
   0xb983fb29491fdef5b8f2d99bd1b74037fb1f101a, 0x7d5500217bf4353fe9ca63f6453676c7eb0f478f,
   0x8035df4e9d9dee07f2f715b980a633945f965d0d, 0xe6897f901bc9b3b92ce047691e49d14892d11558,
   0x9239300b624d50ee43ca48b2b68bc754de0441b1, 0xa2704edbec6fda839e756d0cb149184179b168e1,
   0x870e0b346d66f722fb480f3852838a20f430ccf6, 0x1f7b2b1c22c4438d4875b35b3320c2463b5a979e,
   0x6c7d91f3cf320e4474c456d137dbc063227fff1b, 0xf72c0014cddf5cf1d9306de1bb9bdeff0aab1b74,
   0x6b09860ed21dbfabfb1dd90230f53671b231af2c, 0x11bc57a66de9b245334de078df92bcba2f4cb584,
   0x4e8218292b9c627dccfd6339634df9db49fcf581, 0x45bdc5c870a1370d7507d58a001efedbb6b022b2,
   0xde1fe74547a508d1fb17353ced59572e8840a74d, 0xba35a5d950218600bfab5566b750b11f0cd3f90f,
   0x1e660a742bed7e59cd9cfb091cd506759163d7af, 0xff85eabfcc130b9bf32aa5c6dd3bfde691aa7328,
   0xa8850f27e7244a5d37a04d5c3d073fb61fc9f976, 0xdce9a028ac05ff8d1dcbe8a301bec99151141dbe,
   0xd09683f4858d80d21247b0661344a6df99c28c48, 0x0fea15f94381c47d17f758c794e19c8174bee776]

/-- What `from_hex` makes of them, src/parsec/agent/runners/evm/util.cpp:118. -/
def initialAddresses : List Address := initialNumbers.map Address.ofNat

/-- The shards with the row of an address written,
src/parsec/agent/runners/evm/util.cpp:122-128. -/
def World.seed (w : World) (a : Address) : World :=
  { w with accounts := put w.accounts a (some initialAccount) }

/-- Whether `mint_initial_accounts` or `main` returns, and what. -/
inductive Ends where
  | returns (ok : Bool)
  | waits

/-- The second loop, src/parsec/agent/runners/evm/util.cpp:135-143: a future of which the
promise is never kept is waited for. -/
def awaitAll : List (Option Bool) → Ends
  | [] => .returns true
  | none :: _ => .waits
  | some false :: _ => .returns false
  | some true :: l => awaitAll l

/-- The first loop, src/parsec/agent/runners/evm/util.cpp:115-133: the shards once what is
asked for has been done, what the callbacks are told, and whether no request was refused. -/
def requestAll (rows : Address → Row) (w : World) : List Address → World × List (Option Bool) × Bool
  | [] => (w, [], true)
  | a :: l =>
    let p := putRow (rows a)
    let w := if p.written then w.seed a else w
    if p.started then
      let r := requestAll rows w l
      (r.1, p.told :: r.2.1, r.2.2)
    else (w, [], false)

/-- `mint_initial_accounts`, src/parsec/agent/runners/evm/util.cpp:101-144. -/
def mintInitial (rows : Address → Row) (w : World) : World × Ends :=
  let r := requestAll rows w initialAddresses
  (r.1, if r.2.2 then awaitAll r.2.1 else .returns false)

/-- `runner_type`, src/parsec/util.hpp:22-28. -/
inductive Runner where
  | evm
  | lua

/-- A start of an agent, src/parsec/agent/agentd.cpp:82-121: what is in its configuration,
what comes of the recovery of the broker within a minute, and what the broker does with
the rows. -/
structure Start where
  runner : Runner
  component : UInt64
  recovered : Call
  rows : Address → Row

/-- The shards after a start of an agent, and whether it goes on to serve,
src/parsec/agent/agentd.cpp:82-121.  A broker which does not answer is given up after a
minute.  Simplification: that the recovery changes the shards is left to C48. -/
def Start.run (s : Start) (w : World) : World × Ends :=
  match s.recovered with
  | .refused => (w, .returns false)
  | .silent => (w, .returns false)
  | .told false => (w, .returns false)
  | .told true =>
    match s.runner with
    | .lua => (w, .returns true)
    | .evm => if s.component = 0 then mintInitial s.rows w else (w, .returns true)

/-! ### The life of the system -/

/-- A request to execute a transaction is served, or an agent starts. -/
inductive Step where
  | request (r : Request)
  | start (s : Start)

/-- The shards after these steps, and the transactions which were executed. -/
def play (c : Curve) (chain : UInt64) : World → List Step → World × List EvmTx
  | w, [] => (w, [])
  | w, .start s :: l => play c chain (s.run w).1 l
  | w, .request r :: l =>
    match runSigned c (r.env w) chain r.tx r.locks r.vm with
    | .updates u => let p := play c chain (w.apply u) l; (p.1, r.tx :: p.2)
    | _ => play c chain w l

end Verif.Evm
