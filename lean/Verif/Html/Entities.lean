/-!
# Tables of HTML entities

Generated from CPython 3.11.10: `html/entities.py` (`name2codepoint`, `html5`) and `html/__init__.py`
(`_invalid_charrefs`, `_invalid_codepoints`).  A name is stored as the number whose digits in base 0x110000 are its
code points; a text of one or two characters likewise.
-/

namespace Verif.Html

/-- part of `name2codepointTable` -/
def name2codepointTable0 : List (Nat × Nat) := [
  (0x52d6862c3579ec06f90067, 198), (0x5803f0c9ea86bf3841507b40065, 193), (0x52d6886bf3768907920063, 194),
  (0x5803f14442f8bd26d8107d60065, 192), (0x52d68918ac7e7006e80061, 913), (0x52d6898bd27689074e0067, 197),
  (0x5803f24d57bdf1979ec06a40065, 195), (0x4df718415073d006c, 196), (0x4f2a2720507b40061, 914),
  (0x5ab93b12b2a925570e406f9006c, 199), (0x4ba306e80069, 935), (0x5c13dff9ea8b8b7744706b50072, 8225),
  (0x56a94b925579ec07b40061, 916), (0x4de505940048, 208), (0x5d6e8509ea86bf3841507b40065, 201),
  (0x57ef8c6bf3768907920063, 202), (0x5d6e858442f8bd26d8107d60065, 200), (0x63456e9f84028f3adf1979ec075f006e, 917),
  (0x4de507b40061, 919), (0x52c358415073d006c, 203), (0x5a7c0e45917b0d073d0061, 915),
  (0x62d91949ea86bf3841507b40065, 205), (0x5d08906bf3768907920063, 206), (0x62d919c442f8bd26d8107d60065, 204),
  (0x578f97d4f07b40061, 921), (0x578f98415073d006c, 207), (0x5f951245917e7007700061, 922),
  (0x66e90879ea92bdd6ea206a40061, 923), (0x51d0075, 924), (0x699e541d57bdf1979ec06a40065, 209), (0x52e0075, 925),
  (0x64ae142c3579ec06f90067, 338), (0x6af8f7a9ea86bf3841507b40065, 211), (0x64ae166bf3768907920063, 212),
  (0x6af8f82442f8bd26d8107d60065, 210), (0x64ae172bdd720506d70061, 937), (0x71a888288502d0b06bf380b2075f006e, 927),
  (0x6af8f918f3b18ac6d8107a30068, 216), (0x6af8f92d57bdf1979ec06a40065, 213), (0x5ec1f8415073d006c, 214),
  (0x5a5006e80069, 934), (0x5500069, 928), (0x65f4588bd27689073d0065, 8243), (0x5a5007a30069, 936),
  (0x5c9206e8006f, 929), (0x70638c12b2a459180b2075f006e, 352), (0x69c71adf197447073d0061, 931),
  (0x6b0d5965c8592f0572004e, 222), (0x5ed406710075, 932), (0x6b0d5bcbe8720507b40061, 920),
  (0x7318d609ea86bf3841507b40065, 218), (0x6c539c6bf3768907920063, 219), (0x7318d68442f8bd26d8107d60065, 217),
  (0x7a4a64af84028f3adf1979ec075f006e, 933), (0x65f458415073d006c, 220), (0x5d80069, 926),
  (0x78836a49ea86bf3841507b40065, 221), (0x6ac098415073d006c, 376), (0x6bf3a720507b40061, 918),
  (0x835892c9ea86bf3841507b40065, 225), (0x7b9ea86bf3768907920063, 226), (0x7b9ea86bf3841507b40065, 180),
  (0x7b9ea8925579ec06f90067, 230), (0x8358934442f8bd26d8107d60065, 224),
  (0x8b8e1ce4daacb7aca58681d30809006d, 8501), (0x7b9ea918ac7e7006e80061, 945), (0x6d81073d0070, 38),
  (0x6d81074e0064, 8743), (0x6d81074e0067, 8736), (0x7b9ea98bd27689074e0067, 229),
  (0x7b9ea99f038899073d0070, 8776), (0x8358944d57bdf1979ec06a40065, 227), (0x745918415073d006c, 228),
  (0x7ce4e97f247f9107c5006f, 8222), (0x758c2720507b40061, 946), (0x84b339348fad8966ea206710072, 166),
  (0x758c28415072c006c, 8226), (0x6fc306710070, 8745), (0x860ddd12b2a925570e406f9006c, 231),
  (0x7e2b2a925570e406f9006c, 184), (0x76bf37205074e0074, 162), (0x6fc306e80069, 967), (0x76bf3768907920063, 710),
  (0x7e2b2b18ac841506820073, 9827), (0x76bf37d4f074e0067, 8773), (0x76bf37d4f07700079, 169),
  (0x7e2b2b8bd26d8107920072, 8629), (0x6fc307c50070, 8746), (0x860dde81bbd8bd280b206b5006e, 164),
  (0x77f24496107920072, 8659), (0x876881f9ea8b8b7744706b50072, 8224), (0x77f246d8107920072, 8595),
  (0x70e406b50067, 176), (0x7f716b925579ec07b40061, 948), (0x7f716bdf196d81073d0073, 9830),
  (0x8768829d0b1d896768906a40065, 247), (0x88c32709ea86bf3841507b40065, 233), (0x80b7ac6bf3768907920063, 234),
  (0x88c3278442f8bd26d8107d60065, 232), (0x80b7ad2bdd7e7007b40079, 8709), (0x792557b0d07a30070, 8195),
  (0x792557c2e07a30070, 8194), (0x914f5abf84028f3adf1979ec075f006e, 949), (0x80b7ad78a1841506f90076, 8801),
  (0x720507b40061, 951), (0x720507b40068, 240), (0x792558415073d006c, 235), (0x7925584150792006f, 8364),
  (0x80b7adfef8768907a30074, 8707), (0x7a5867c2e075f0066, 402), (0x8a1dcd376378bd26d81072c006c, 8704),
  (0x8a1dcd748f945916fc303410032, 189), (0x8a1dcd748f945916fc303410034, 188), (0x8a1dcd748f945916fc303630034, 190),
  (0x81fdee8bd26d8107a3006c, 8260), (0x83442e45917b0d073d0061, 947), (0x6d70065, 8805), (0x6d70074, 62),
  (0x7cbe8496107920072, 8660), (0x7cbe86d8107920072, 8596)]

/-- part of `name2codepointTable` -/
def name2codepointTable1 : List (Nat × Nat) := [
  (0x8cd3168b7ac459180b207b40073, 9829), (0x8cd3168b7ad18ac79ec06f90070, 8230),
  (0x8e2dbb49ea86bf3841507b40065, 237), (0x85d0b06bf3768907920063, 238), (0x85d0b0925587780693006c, 161),
  (0x8e2dbbc442f8bd26d8107d60065, 236), (0x85d0b12bdd6d8106d70065, 8465), (0x85d0b13f0e732606f9006e, 8734),
  (0x7689074e0074, 8747), (0x7df197d4f07b40061, 953), (0x8e2dbc902b9c565720507a30074, 191),
  (0x7df1981d306f9006e, 8712), (0x7df198415073d006c, 239), (0x885d3245917e7007700061, 954),
  (0x818ac496107920072, 8656), (0x923daa79ea92bdd6ea206a40061, 955), (0x818ac6d81074e0067, 9001),
  (0x89a37345917f9107c5006f, 171), (0x818ac6d8107920072, 8592), (0x89a3736bf3720506f9006c, 8968),
  (0x89a3737f247f9107c5006f, 8220), (0x72c0065, 8804), (0x923daadfdee18ac7d4f075f0072, 8970),
  (0x923dab97637ebc76d8107a30074, 8727), (0x79ec075f007a, 9674), (0x79ec0792006d, 8206),
  (0x923dabe8f3a45917f9107c5006f, 8249), (0x89a3749f037f9107c5006f, 8216), (0x72c0074, 60),
  (0x82bdd6d8106930072, 175), (0x8ae9b47f246d8107a30068, 8212), (0x8ae9b4df196fc30792006f, 181),
  (0x9398502d0b07f2470e4075f0074, 183), (0x8ae9b4df197c2e07c50073, 8722), (0x73d0075, 956),
  (0x8c2ff545916ea2072c0061, 8711), (0x83f0e6ea207a30070, 160), (0x8c2ff57f246d8107a30068, 8211),
  (0x74e0065, 8800), (0x74e0069, 8715), (0x7c2e075f0074, 172), (0x8c2ff6523f82f406f9006e, 8713),
  (0x83f0e81d307c50062, 8836), (0x94f2f61d57bdf1979ec06a40065, 241), (0x74e0075, 957),
  (0x964d99a9ea86bf3841507b40065, 243), (0x8d76366bf3768907920063, 244), (0x8d7636925579ec06f90067, 339),
  (0x964d9a2442f8bd26d8107d60065, 242), (0x8d763718ac7689074e0065, 8254), (0x8d76372bdd720506d70061, 969),
  (0x9fb274488502d0b06bf380b2075f006e, 959), (0x8d7637657079ec07c50073, 8853), (0x75f0072, 8744),
  (0x8523f80b206a40066, 170), (0x8523f80b206a4006d, 186), (0x964d9b18f3b18ac6d8107a30068, 248),
  (0x964d9b2d57bdf1979ec06a40065, 245), (0x964d9b2d57bdf197b0d06b50073, 8855), (0x8523f8415073d006c, 246),
  (0x865706d8107920061, 182), (0x865706d8107920074, 8706), (0x97a83f0b7ad8bd27b0d06f9006c, 8240),
  (0x86570720507920070, 8869), (0x7e7006e80069, 966), (0x7700069, 960), (0x7e7006f90076, 982),
  (0x97a83f9a374c56581d3073d006e, 177), (0x8ebc78523f8415074e0064, 163), (0x8ebc788bd27689073d0065, 8242),
  (0x8657080b2075f0064, 8719), (0x8657080b2075f0070, 8733), (0x7e7007a30069, 968), (0x878a18415075f0074, 34),
  (0x88bd2496107920072, 8658), (0x9148f9459170e406f90063, 8730), (0x88bd26d81074e0067, 9002),
  (0x9148f945917f9107c5006f, 187), (0x88bd26d8107920072, 8594), (0x9148f96bf3720506f9006c, 8969),
  (0x9148f97f247f9107c5006f, 8221), (0x88bd272050671006c, 8476), (0x80b206b50067, 174),
  (0x9a5d893fdee18ac7d4f075f0072, 8971), (0x80b206e8006f, 961), (0x80b2072c006d, 8207),
  (0x9a5d8a48f3a45917f9107c5006f, 8250), (0x9148fa9f037f9107c5006f, 8217), (0x928f3a58c27f9107c5006f, 8218),
  (0x9bb82e12b2a459180b2075f006e, 353), (0x89f0370e4075f0074, 8901), (0x89f03720506930074, 167),
  (0x81d306e80079, 173), (0x928f3adf197447073d0061, 963), (0x9bb82e8d0b0b8b77b0d06710066, 962),
  (0x81d306f9006d, 8764), (0x9bb82f1bc77459170e406b50073, 9824), (0x81d307c50062, 8834),
  (0x89f03841506820065, 8838), (0x81d307c5006d, 8721), (0x81d307c50070, 8835), (0x89f03841507700031, 185),
  (0x89f03841507700032, 178), (0x89f03841507700033, 179), (0x89f03841507700065, 8839),
  (0x928f3c255a79ec06f90067, 223), (0x82f406710075, 964), (0x9d12d388a6f925580b206b50034, 8756),
  (0x93d57bcbe8720507b40061, 952), (0xb15240cd447f43288d57b459181d30809006d, 977),
  (0x9d12d388a6fdf197c2e07a30070, 8201), (0x93d57bcbe87d4f0792006e, 254), (0x93d57bdf1979ec06a40065, 732),
  (0x93d57bdf197b0d06b50073, 215), (0x93d57c8bd26d8106a40065, 8482), (0x8c565496107920072, 8657),
  (0x9e6d7809ea86bf3841507b40065, 250), (0x8c5656d8107920072, 8593), (0x951bbc6bf3768907920063, 251),
  (0x9e6d788442f8bd26d8107d60065, 249)]

/-- part of `name2codepointTable` -/
def name2codepointTable2 : List (Nat × Nat) := [
  (0x8415073d006c, 168), (0x951bbd657081d306f90068, 978), (0xa85450cf84028f3adf1979ec075f006e, 965),
  (0x8c5658415073d006c, 252), (0xa122c27b7acdf19720507920070, 8472), (0x7f80069, 958),
  (0xa3d80c49ea86bf3841507b40065, 253), (0x889906b5006e, 165), (0x912298415073d006c, 255),
  (0x9255a720507b40061, 950), (0x89ba07e7006a, 8205), (0x9255a8657074e006a, 8204)]

/-- `html.entities.name2codepoint` -/
def name2codepointTable : List (Nat × Nat) :=
  name2codepointTable0 ++ name2codepointTable1 ++ name2codepointTable2

/-- part of `html5Table` -/
def html5Table0 : List (Nat × Nat) := [
  (0x52d6862c3579ec06f90067, 198), (0x5803ee8ef8d18ac768906d7003b, 198), (0x4961051d0050, 38),
  (0x4df7156ed0550003b, 38), (0x5803f0c9ea86bf3841507b40065, 193), (0x5d842fd6892f2b2bc56582f406b5003b, 193),
  (0x5d842fec339348f99255853606b5003b, 258), (0x52d6886bf3768907920063, 194), (0x5803f0f2b2adf1980b20693003b, 194),
  (0x4df716fc30809003b, 1040), (0x4df7173260792003b, 120068), (0x5803f14442f8bd26d8107d60065, 192),
  (0x5d843058872848f94591853606b5003b, 192), (0x5803f1aa374657075680671003b, 913),
  (0x5803f1be9b445916fc30792003b, 256), (0x4df717c2e06a4003b, 10835), (0x5803f1e7636b8b77d4f074e003b, 260),
  (0x52d689523f7e7006c6003b, 120120),
  (0x8ef3b62ee894cd0517103522b5839b4f8df5ae7240edde6d57bdf197d4f074e003b, 8289), (0x52d6898bd27689074e0067, 197),
  (0x5803f2248f9df197c2e06d7003b, 197), (0x52d6899f036fc30792003b, 119964),
  (0x5d84315c82f58f3adf197447074e003b, 8788), (0x5803f24d57bdf1979ec06a40065, 195),
  (0x5d8431722d39d0b118ac70e406b5003b, 195), (0x4df718415073d006c, 196), (0x52d689c5657b0d072c003b, 196),
  (0x71e523d78cfc23b74a4374682eca373459181d306e8003b, 8726), (0x541cc9459180b207d6003b, 10983),
  (0x5ef47f37894248faebc7720506a4003b, 8966), (0x4f2a26fc30809003b, 1041),
  (0x64e3c787159a5ddce9ea9c56581d306b5003b, 8757), (0x790376837771d50733d6764074f5d78ea37418ac768907a3003b, 8492),
  (0x541cc9925582f40671003b, 914), (0x4f2a273260792003b, 120069), (0x541cca523f7e7006c6003b, 120121),
  (0x595e97348f99255853606b5003b, 728), (0x541cca9f036fc30792003b, 8492),
  (0x5ef480e8d78fe9b5657072050781003b, 8782), (0x55630865c86fc30809003b, 1063), (0x505d3592f05500059, 169),
  (0x556308ec1f5a5005e9003b, 169), (0x6064ce98892f2b2bc56582f406b5003b, 262), (0x505d36d810770003b, 8914),
  (0xe13e95b9ed0b1f3920549488284ca0294210abbdad0a1d7524b91c64a5e215d50657b703d7257f2d39d0b0459179ec0484003b, 8517),
  (0x666b1b8211dfe80d2a3739255889907a3003b, 8493), (0x6064cec3ddce9ea98bd27d4f074e003b, 268),
  (0x5ab93b12b2a925570e406f9006c, 199), (0x6064cec3ddd3b7ac7f247689072c003b, 199),
  (0x5ab93b12b2adf1980b20693003b, 264), (0x666b1bb01bbe7d9ab2ff5df197c2e07b4003b, 8752),
  (0x55630a7f247d4f07b4003b, 266), (0x666b1bde259bb8829d0b118ac79ec0671003b, 184),
  (0x739eea75c8841497d720080328648f719047d4f07b4003b, 183), (0x505d373260792003b, 8493),
  (0x505d3756806f9003b, 935), (0x739eeaddbaf15227ac0bba6daacb7aa19047d4f07b4003b, 8857),
  (0x82866724500a6dbec9393d75cdcfb57c93ae2d0b13f0e841507a3003b, 8854),
  (0x7ad8d98b96a0674a26cc76148578325af45818ac841507a3003b, 8853),
  (0x82866724500a6dbec9393d75cdcfb5860e319d0b12bdd720507a3003b, 8855),
  (0x11f0ee6547cb293dd72e4c5d645be905095130b19e67de91d41d139cfa44eabd53aa655e0c0f246ff4e591a232d7d7200803278442f8bd26d81072c003b, 8754),
  (0xef5281653b83a250c85aaf031775a85d32f0adaf811b3d5f3b399d456b2d844c2db217d3adbdcfb581fe4361bbd523f82f406b5003b, 8221),
  (0xa6584be897a294a72b6ff4df6084563abeb491e1702ebf9c18bb3e4361bbd523f82f406b5003b, 8217),
  (0x5ab93c0763718ac7d4f074e003b, 8759), (0x6064cfc7d9a8a374523f7c2e06b5003b, 10868),
  (0x739eeb79a685e536abdf9acd8a71bbc92557c2e07b4003b, 8801), (0x6064cfc7d9ab2ff5df197c2e07b4003b, 8751),
  (0xa6584c58c123f4eabd53aa655e0c0f246ff4e591a232d7d7200803278442f8bd26d81072c003b, 8750),
  (0x55630b523f7e7006c6003b, 8450), (0x739eeb79a688f3e05736296d99e716cc5656fc307b4003b, 8720),
  (0x1b6ce55767fb7f36c28f50100f73e5d9b25280b491e896386a8bf5af57d645be905095130b19e67de91d41d139cfa44eabd53aa655e0c0f246ff4e591a232d7d7200803278442f8bd26d81072c003b, 8755),
  (0x5ab93c448fa523f81d307a3003b, 10799), (0x55630b9f036fc30792003b, 119966), (0x505d384150770003b, 8915),
  (0x6064d049d793bc7505d36d810770003b, 8781), (0x4cc40484003b, 8517),
  (0x6e7194116b11b674e02d4548f94591756806a4003b, 10513), (0x56a9498c2a6fc30809003b, 1026),
  (0x56a94a38e36fc30809003b, 1029), (0x56a94abf3a6fc30809003b, 1039), (0x61d51df98934442eb8b772050792003b, 8225),
  (0x56a94b459180b20792003b, 8609), (0x5c13dff9ea99f03756807d6003b, 10980),
  (0x61d51e24ddce9ea98bd27d4f074e003b, 270), (0x519046fc30809003b, 1044), (0x519047205072c003b, 8711),
  (0x5c13e04b7ad18ac82f40671003b, 916), (0x5190473260792003b, 120071),
  (0xb3611f7826407a27a64ce61ad2495b902e608ed2590a79ca52eb32826c3f0f2b2bc56582f406b5003b, 180),
  (0x9ee588d4ba3e6dfa5fef14776d357732a6ddf28e09c7bab8893aa37119047d4f07b4003b, 729),
  (0x102133c2d39fd03fd1f93e284b3c081f04fdabead09063d0b64c7589b8d8032e5d844c2db217d3adbdcfb56c53f0f2b2bc56582f406b5003b, 733),
  (0xb3611f7826407a27a64ce61ad2495b902e608ed2590a79ca52eb3282ee3d0848f94591853606b5003b, 96),
  (0xb3611f7826407a27a64ce61ad2495b902e608ed2590a79ca52eb328407e319d0b118ac70e406b5003b, 732),
  (0x67f27091496fe893be9b5523f7c2e06a4003b, 8900),
  (0x958cbd047317524b91c64a5e215d50657b703d7257f2d39d0b0459179ec0484003b, 8518),
  (0x56a94c523f7e7006c6003b, 120123), (0x519047d4f07b4003b, 168), (0x61d51f28d9b2d57919047d4f07b4003b, 8412),
  (0x6e71982d1dc2e2fdcae86502b9c5656d81072c003b, 8784),
  (0xf2e4ee9a7b437d4dbec2d226a9de0fe28d991c2cfa44eabd53aa655e0c0f246ff4e591a232d7d7200803278442f8bd26d81072c003b, 8751),
  (0x7558b1afefa098849a36c45daacb7aa19047d4f07b4003b, 168),
  (0xa8d3e2425915779988648f9bfed3b2ca30b9ffefa3a72e5c9212e3f2248fa8bd27d4f07e7003b, 8659),
  (0xa8d3e2425915779988648f9bfed3b2d7feeaae5a07d9f51e9fd743f2248fa8bd27d4f07e7003b, 8656),
  (0xe49b3aebbf4e940cefc66b6faeef1e176eedfcd6b989454400370d1cc0c2fd89a0e78bdccbfd743f2248fa8bd27d4f07e7003b, 8660),
  (0x958cbdcb28d259ff960ce5f723477be01b62edb59e6dcd9d57a4c14720506b5003b, 10980),
  (0xd728afecf049f4c0e1abb0691d1d497f7777decbac1f72d1c021549ece5a07d9f51e9fd743f2248fa8bd27d4f07e7003b, 10232),
  (0x12357b8722b79a37c109f8e31801feb087b37fad95dd52c36760afddc428a9b89454400370d1cc0c2fd89a0e78bdccbfd743f2248fa8bd27d4f07e7003b, 10234),
  (0xe49b3aebbf4e940cefc66b6faeef1e176eef5cb866e169fedc2e6a38c3c2fd89a0e78bdccbfd743f2248fa8bd27d4f07e7003b, 10233),
  (0xb36120667ea6cf1320ead895bec0ee107f2961c2fd89a0e78bdccbfd743f2248fa8bd27d4f07e7003b, 8658),
  (0x9ee589a7db5f7f9f8f6db456957bf3a7dbd3296c0f88f8d4317bd57a4c14720506b5003b, 8872),
  (0x958cbdcb28d259ff960ce5f723477beddd5afa7bff03f2248fa8bd27d4f07e7003b, 8657),
  (0xbe97326ce6913c0452f9861f1aacfcf75f470f13856818afefa3a72e5c9212e3f2248fa8bd27d4f07e7003b, 8661),
  (0xbe97326ce6913c0452f9861f1aacfcf951fe8fa886325842ff6f28e09c7bab8893aa370f2a26d810792003b, 8741),
  (0x7558b1afefa3a72e5c9212e3f2248fa8bd27d4f07e7003b, 8595),
  (0x8cc0b2a117603bb70be8f5c889a0fa90556296d9b6a83bf2a26d810792003b, 10515),
  (0xb36120667eab7b7a42a4af23c72df0f36b613a218be19edee7afa7bff03f2248fa8bd27d4f07e7003b, 8693),
  (0x7558b1afefa3a72e5c92143e97348f99255853606b5003b, 785),
  (0xd728afecf04f8fcb558fc3a2493c0835b1d998403a7dee8ccf2d623af6049a98bf2eeb32232732b2bb2347d4f0792003b, 10576),
  (0xbe97326ce6963331e6cf12471e534b7adb8c7c3c737fe350a286529e14fb32232732b2bb2347d4f0792003b, 10590),
  (0x9ee589a7db63a369a47211a29e923fa857947089f2eeb32232732b2bb2347d4f0792003b, 8637)]

/-- part of `html5Table` -/
def html5Table1 : List (Nat × Nat) := [
  (0xbe97326ce6963331e6cf12471e534b7adb8c7c3c76f36fbd34a343f81970158d9b048f6f2a26d810792003b, 10582),
  (0xca80a593b4ff9665053c1170c137a99a5fa2d8b6e5aed699fe350a286529e14fb32232732b2bb2347d4f0792003b, 10591),
  (0xa8d3e2425919dda03eb93e6d1d846f2d623af6049a98bf2eeb32232732b2bb2347d4f0792003b, 8641),
  (0xca80a593b4ff9665053c1170c137a99a5fa2d8b6e5aed6d136fbd34a343f81970158d9b048f6f2a26d810792003b, 10583),
  (0x67f2711b675212c332ff44c14720506b5003b, 8868),
  (0x8cc0b2a117603bb70be914a47f0098f6e456c53f2248fa8bd27d4f07e7003b, 8615),
  (0x7558b1afefa3a72e5c923e3894248fa8bd27d4f07e7003b, 8659), (0x56a94c9f036fc30792003b, 119967),
  (0x61d51f7f82f6d57c8bd27d4f071b003b, 272), (0x52c35580e04b7003b, 330), (0x4de505940048, 208),
  (0x52c355ed404c8003b, 208), (0x5d6e8509ea86bf3841507b40065, 201), (0x63456d5a892f2b2bc56582f406b5003b, 201),
  (0x63456d85ddce9ea98bd27d4f074e003b, 282), (0x57ef8c6bf3768907920063, 202), (0x5d6e8532b2adf1980b20693003b, 202),
  (0x52c356fc30809003b, 1069), (0x57ef8c7f247d4f07b4003b, 278), (0x52c3573260792003b, 120072),
  (0x5d6e858442f8bd26d8107d60065, 200), (0x63456ddc872848f94591853606b5003b, 200),
  (0x6979c52d68578327fe9b492557c2e07b4003b, 8712), (0x5d6e85fe9b445916fc30792003b, 274),
  (0xb6046f5f3d3e2c94a2ed57f65ce3e98a1c04482fe5840957e5c315c6032e561bbc459180b206b5003b, 9723),
  (0xe7f7dcf38f2bb98e99379c47104efd4d46a55ee2fd351786478a1c04482fe5840957e5c315c6032e561bbc459180b206b5003b, 9643),
  (0x5d6e8627636b8b77d4f074e003b, 280), (0x57ef8d523f7e7006c6003b, 120124),
  (0x6979c5897c42b82e8d0b118ac7d4f074e003b, 917), (0x5d6e86502b9c5656d81072c003b, 10869),
  (0x7e839f9bd5026b2ecb64eb328407e319d0b118ac70e406b5003b, 8770),
  (0x866bd995925291e2880008262e2bc9714339348f9df198415073d003b, 8652), (0x57ef8d9f036fc30792003b, 8496),
  (0x57ef8d9f037689073d003b, 10867), (0x52c3582f40671003b, 919), (0x52c358415073d006c, 203),
  (0x57ef8dc5657b0d072c003b, 203), (0x63456f4cd67dd0b19f0382f407a3003b, 8707),
  (0x8ed298091c43ffca2cc63b4389e5b303d7257f2d39d0b0459179ec0495003b, 8519), (0x53f666fc30809003b, 1060),
  (0x53f6673260792003b, 120073),
  (0xc43239e911ac581d9cd4d9e504fe198a069504704482fe5840957e5c315c6032e561bbc459180b206b5003b, 9724),
  (0xfa09c67f80aef4f8153bdf84f781d911b32e012b849e2fd351786478a1c04482fe5840957e5c315c6032e561bbc459180b206b5003b, 9642),
  (0x5935ce523f7e7006c6003b, 120125), (0x64b5bdead9b048f6df7179ec072c003b, 8704),
  (0x805901fe49dca20e6b2e83629755328648fab23480b206c6003b, 8497), (0x5935ce9f036fc30792003b, 8497),
  (0x5a7c0c8c2a6fc30809003b, 1027), (0x4b70054, 62), (0x50270594003b, 62), (0x6023cf29ea92bdd7b0d0671003b, 915),
  (0x66260c1c893be9b52bdd6d8106a4003b, 988), (0x66260c32339348f99255853606b5003b, 286),
  (0x66260c47ddd3b7ac7f247689072c003b, 290), (0x6023cf52b2adf1980b20693003b, 284), (0x552976fc30809003b, 1043),
  (0x5a7c0e7f247d4f07b4003b, 288), (0x5529773260792003b, 120074), (0x502706d7003b, 8921),
  (0x5a7c0f523f7e7006c6003b, 120126), (0x92f65fed10ec1b5de9c2ea825590b909985f08e86502b9c5656d81072c003b, 8805),
  (0xbb4b0eb63ebdf6cc8a86911f840e05613378b57933a31e428a48331ce4da8cdb53925581d307a3003b, 8923),
  (0xbb4b0eb63ebdf6cc8a86911f840e05613378d1159d86d4d86ee70d82c2e86502b9c5656d81072c003b, 8807),
  (0xa5e8224aa01a8ae504e50abd229860e3d50379f8e65a61be32709ea9b23472050792003b, 10914),
  (0x8a514b397956b058638a4620508835aead872db53925581d307a3003b, 8823),
  (0xc6ffbfa1a2a9d639532efa317c4ee5b746b1db8704b45bef89acf457d71fdcae86502b9c5656d81072c003b, 10878),
  (0x92f65fed10ec1b5de9c2ea825590b90998604de319d0b118ac70e406b5003b, 8819), (0x5a7c0f9f036fc30792003b, 119970),
  (0x502707b4003b, 8811), (0x679658c83ef980d719046fc30809003b, 1066), (0x617e7439ea86bf37205071b003b, 711),
  (0x565c86d8107b4003b, 94), (0x617e7462b2adf1980b20693003b, 292), (0x565c873260792003b, 8460),
  (0x95084324060dd94b001e9c8a17a31e9335fefa38d1bc7745916fc306b5003b, 8459), (0x5bc250523f7e7006c6003b, 8461),
  (0xa83e549ecbd9b9777b279b2eb0ce8e85438b549202c21ce4da8cdb53df197c2e06b5003b, 9472),
  (0x5bc2509f036fc30792003b, 8459), (0x67965d0382f6d57c8bd27d4f071b003b, 294),
  (0x9508449a10a2250b68597771082d1dc733ef662f29c250c5657b0d0770003b, 8782),
  (0x7c3fcb24ff6f0e4323fc046e86502b9c5656d81072c003b, 8783), (0x5d088e2c356fc30809003b, 1045),
  (0x62d91774ed218ac768906d7003b, 306), (0x5d088eec1f6fc30809003b, 1025), (0x62d91949ea86bf3841507b40065, 205),
  (0x6906aade892f2b2bc56582f406b5003b, 205), (0x5d08906bf3768907920063, 206), (0x62d91972b2adf1980b20693003b, 206),
  (0x578f96fc30809003b, 1048), (0x5d08907f247d4f07b4003b, 304), (0x578f973260792003b, 8465),
  (0x62d919c442f8bd26d8107d60065, 204), (0x6906ab60872848f94591853606b5003b, 204), (0x5269073d003b, 8465),
  (0x62d91a3e9b445916fc30792003b, 298), (0x85d9299419d85d2b2410878798182f499ea98bd2889904d9003b, 8520),
  (0x6f9716a0ad5c783f9a373df19720507a3003b, 8658), (0x578f97c2e07b4003b, 8748),
  (0x769088232d7d7200803278442f8bd26d81072c003b, 8747),
  (0x971a280f5cdc4c069560e3d507ae20c31259a5dde6d57bdf197d4f074e003b, 8898),
  (0xaa94873957d8d59c8a4a995cfdf524b66ab13adbdcfb56f093c076372bdd7b0d0671003b, 8291),
  (0xaa94873957d8d59c8a4a995cfdf524b66ab13adbdcfb5860e319d0b12bdd720507a3003b, 8290),
  (0x62d91a67636b8b77d4f074e003b, 302), (0x5d0891523f7e7006c6003b, 120128), (0x5d0891523f82f40671003b, 921),
  (0x5d08919f036fc30792003b, 8464), (0x6906ac7a2d39d0b118ac70e406b5003b, 296),
  (0x62d91ae1bbd057b6fc30809003b, 1030), (0x578f98415073d006c, 207), (0x5d0891c5657b0d072c003b, 207),
  (0x6433be82b2adf1980b20693003b, 308), (0x58c2a6fc30809003b, 1049), (0x58c2a73260792003b, 120077),
  (0x5e4ed2523f7e7006c6003b, 120129), (0x5e4ed29f036fc30792003b, 119973),
  (0x6a76fbc582e3b7ad8bd26fc30809003b, 1032), (0x6433bff1bbd057b6fc30809003b, 1028),
  (0x5f951065c86fc30809003b, 1061), (0x5f95108c2a6fc30809003b, 1036), (0x658e6369ea965707e700671003b, 922)]

/-- part of `html5Table` -/
def html5Table2 : List (Nat × Nat) := [
  (0x6be749cbddd3b7ac7f247689072c003b, 310), (0x59f5b6fc30809003b, 1050), (0x59f5b73260792003b, 120078),
  (0x5f9513523f7e7006c6003b, 120130), (0x5f95139f036fc30792003b, 119974), (0x60db518c2a6fc30809003b, 1033),
  (0x50c0054, 60), (0x55cc0594003b, 60), (0x6d579901892f2b2bc56582f406b5003b, 313),
  (0x6d579901893be9b458c270e40671003b, 923), (0x60db5345917c2e06d7003b, 10218),
  (0x8b595015ce2b032fc9e9d73a1c21ddd3b7adb23480b206c6003b, 8466), (0x60db53459180b20792003b, 8606),
  (0x6d57992cddce9ea98bd27d4f074e003b, 317), (0x6d57992cddd3b7ac7f247689072c003b, 315),
  (0x5b28c6fc30809003b, 1051),
  (0xc87b991acbd3bef731c41af5a4ca28ae6e0588d65977bd0d218b256167892f2b2b057b720507b4003b, 10216),
  (0x8326e25e5a07d9f51e9fd743f2248fa8bd27d4f07e7003b, 8592),
  (0x9d4fd3e54bdd0ade930b9923efa0fa90556296d9b6a83bf2a26d810792003b, 8676),
  (0xf078c054b41bab3e60214896448e483358fc4ec9dcd84f473b3d3c2fd89a0e78bdccbfd743f2248fa8bd27d4f07e7003b, 8646),
  (0x940ee58c83a2dd0db79275125bde25a27dbc2a373df197c2e06d7003b, 8968),
  (0xd50352ac7890fae6a4e0633e06f5481259ff960ce5f723477bd0d218b256167892f2b2b057b720507b4003b, 10214),
  (0xd50352ac7890fae6a4e0633e06f548163f727ca7a5eec6f0a286529e14fb32232732b2bb2347d4f0792003b, 10593),
  (0xb1971e35daa4894544001d61b8feee9de1a1425b5248b32232732b2bb2347d4f0792003b, 8643),
  (0xd50352ac7890fae6a4e0633e06f548163f727ca7a962535d34a343f81970158d9b048f6f2a26d810792003b, 10585),
  (0x8326e25e5a07d9f51e9fde092afa374523f7d4f0792003b, 8970),
  (0xb1971e35daa489454400370d1cc0c2fd89a0e78bdccbfd743f2248fa8bd27d4f07e7003b, 8596),
  (0xbcb09019384ed1d998403a7dee8ccf2d623af6049a98bf2eeb32232732b2bb2347d4f0792003b, 10574),
  (0x742d12edb59e6dcd9d57a4c14720506b5003b, 8867),
  (0x9d4fd3e54bdd0ade930bb7ffe50098f6e456c53f2248fa8bd27d4f07e7003b, 8612),
  (0xa724d123a09adb8c7c3c737fe350a286529e14fb32232732b2bb2347d4f0792003b, 10586),
  (0x9d4fd3e54bdd0ade930bb7ffe63e8d836296fe893d2ff5b8b779ec06b5003b, 8882),
  (0xbcb09019384ed1d998403e63611b679d67713cae7cf456abdf92adaacb7a9f2a26d810792003b, 10703),
  (0xd50352ac7890fae6a4e0866e309feff8b1c6d580fb0fd5d80764960dcfb571be86502b9c5656d81072c003b, 8884),
  (0xc87b991acbd3bef731c4445b7b3e43bdbe9a3aee9de1a1425b5248b32232732b2bb2347d4f0792003b, 10577),
  (0xbcb09019384ed1d99840405619a403a1047b10a286529e14fb32232732b2bb2347d4f0792003b, 10592),
  (0x9d4fd3e54bdd0ade930bb99fafaa23dd2ab32232732b2bb2347d4f0792003b, 8639),
  (0xbcb09019384ed1d99840405619a403a478077d34a343f81970158d9b048f6f2a26d810792003b, 10584),
  (0x8b5950843fa857947089f2eeb32232732b2bb2347d4f0792003b, 8636),
  (0xa724d123a09adb8c7c3c76f36fbd34a343f81970158d9b048f6f2a26d810792003b, 10578),
  (0x8326e25e5a07d9f51ea0029894248fa8bd27d4f07e7003b, 8656),
  (0xb1971e35daa48945440071b96ff6771d89a0e78bdccc0029894248fa8bd27d4f07e7003b, 8660),
  (0xc87b991acbf21f8ab1219b605636ce77baffd39ced8405cef2e65a61be32709ea9b23472050792003b, 8922),
  (0xa724d123a0b42eee4994718c33e86d4d86ee70d82c2e86502b9c5656d81072c003b, 8806),
  (0x940ee58c83b94c1e5f4bb1679e65a61be32709ea9b23472050792003b, 8822),
  (0x7b6fe41c910b08b24e82c3db53925581d307a3003b, 10913),
  (0xb1971e35dabf71dd2e2dd07af7fc45bef89acf457d71fdcae86502b9c5656d81072c003b, 10877),
  (0x8326e25e5a1bb93d736afaee319d0b118ac70e406b5003b, 8818), (0x5b28c73260792003b, 120079), (0x55cc072c003b, 8920),
  (0x8b595145865e77c07d9f51ea0029894248fa8bd27d4f07e7003b, 8666), (0x6d579a058502d0b07f247d4f07b4003b, 319),
  (0xa724d26ecf5c1f72d1c021549ece5a07d9f51e9fd743f2248fa8bd27d4f07e7003b, 10229),
  (0xe2538997b2d515d736760afddc428a9b89454400370d1cc0c2fd89a0e78bdccbfd743f2248fa8bd27d4f07e7003b, 10231),
  (0xb1971f95bc51e169fedc2e6a38c3c2fd89a0e78bdccbfd743f2248fa8bd27d4f07e7003b, 10230),
  (0xa724d26ecf5c1f72d1c0588d65977c07d9f51ea0029894248fa8bd27d4f07e7003b, 10232),
  (0xe2538997b2d515d7367655c433fa0e9f0565440071b96ff6771d89a0e78bdccc0029894248fa8bd27d4f07e7003b, 10234),
  (0xb1971f95bc51e169fedc69168bf9771d89a0e78bdccc0029894248fa8bd27d4f07e7003b, 10233),
  (0x60db54523f7e7006c6003b, 120131),
  (0xb1971f95bc6482708bea69767976bfd7e5a07d9f51e9fd743f2248fa8bd27d4f07e7003b, 8601),
  (0xbcb0918f182aca9794a9100de1be30d5ec2fd89a0e78bdccbfd743f2248fa8bd27d4f07e7003b, 8600),
  (0x60db549f036fc30792003b, 8466), (0x5b28c81d306e8003b, 8624), (0x6d579a8782f6d57c8bd27d4f071b003b, 321),
  (0x55cc07b4003b, 8810), (0x5c5bd6d810770003b, 10501), (0x5c5bd6fc30809003b, 1052),
  (0x96019e4fcc1a79802d2605e825976d35338d1bc7745916fc306b5003b, 8287),
  (0x84e0a894a32105ee70d85cedbc52ff6b23480b206c6003b, 8499), (0x5c5bd73260792003b, 120080),
  (0x84e0a8fc958b34d7ee2511082c8f45818ac841507a3003b, 8723), (0x622195523f7e7006c6003b, 120132),
  (0x6221959f036fc30792003b, 8499), (0x56ed07c5003b, 924), (0x6367d38c2a6fc30809003b, 1034),
  (0x703837c3892f2b2bc56582f406b5003b, 323), (0x703837eeddce9ea98bd27d4f074e003b, 327),
  (0x703837eeddd3b7ac7f247689072c003b, 325), (0x5d8ee6fc30809003b, 1053),
  (0xf6ccc4e5c3917d03a26e37bdef0cbe0c21e375bf950c1fb21c1a79802d2605e825976d35338d1bc7745916fc306b5003b, 8203),
  (0xe84840d83f97fd3098e0347686a294c01fe523872fb3ee7981df64a2a64374a4349138d1bc7745916fc306b5003b, 8203),
  (0xda9e5b25e17ffd5aea3c6d9cbaf35ed2f0d7a8f7b46d1cae9859c82199b22b438d1bc7745916fc306b5003b, 8203),
  (0x1169d2a4761c73e211a5e6ced6add628bb241c7ed5b0dc7002d3f7ed63651084625ee9859c82199b22b438d1bc7745916fc306b5003b, 8203),
  (0x1063991341fee512d369edf9a4fa5a7ae9c24e8c23e8ae504e50abd229860e3d50379f8e65a61be32709ea9b23472050792003b, 8811),
  (0xb64383b152ffa99f4d597db06d9e97d3b8881c910b08b24e82c3db53925581d307a3003b, 8810),
  (0x773bbb9bd5b572c07db53df197c2e06b5003b, 10), (0x5d8ee73260792003b, 120081),
  (0x773bbc82070a4e97348f992556d81071b003b, 8288),
  (0xcdc239386c58ee6594c0db544bc3bc3c85f09a28369256b34d6abdf70d38d1bc7745916fc306b5003b, 160),
  (0x6367d6523f7e7006c6003b, 8469), (0x5d8ee7d4f07b4003b, 10988),
  (0xa1739dbbf976458a9b9bab9a685e536abdf9acd8a71bbc92557c2e07b4003b, 8802),
  (0x869a6fceca3f112d798d049d793bc7505d36d810770003b, 8813),
  (0x10639932e615ea0553fe74ddf99eab4452f9861f1aacfcf951fe8fa886325842ff6f28e09c7bab8893aa370f2a26d810792003b, 8742),
  (0x8f0416cbb6e30240821052d68578327fe9b492557c2e07b4003b, 8713),
  (0x7eaf784a27c2e2fdcae86502b9c5656d81072c003b, 8800),
  (0xab8ad797b90da9e38001bcfd5026b2ecb64eb328407e319d0b118ac70e406b5003b, 9770763064),
  (0x869a6fceca3f112da796f4cd67dd0b19f0382f407a3003b, 8708),
  (0x8f0416cbb6e30240b2fae65a61be32709ea9b23472050792003b, 8815),
  (0xc1a7bd6247e86cca15be823c4ec1b5de9c2ea825590b909985f08e86502b9c5656d81072c003b, 8817),
  (0xf6ccc6c23d863c8cf7001f37dd9aacc8a86911f840e05613378d1159d86d4d86ee70d82c2e86502b9c5656d81072c003b, 9811985208),
  (0xda9e5ccbf32d62d0228c110614e8ae504e50abd229860e3d50379f8e65a61be32709ea9b23472050792003b, 9816441656),
  (0xb6438511349e8481f658f30b956b058638a4620508835aead872db53925581d307a3003b, 8825),
  (0x10639932e615ea055c670212b5b74579532efa317c4ee5b746b1db8704b45bef89acf457d71fdcae86502b9c5656d81072c003b, 12119311160),
  (0xc1a7bd6247e86cca15be823c4ec1b5de9c2ea825590b90998604de319d0b118ac70e406b5003b, 8821),
  (0xc1a7bd6247e86cca36dccd0c4a2250b68597771082d1dc733ef662f29c250c5657b0d0770003b, 9784132408),
  (0xa1739dbbf976458b25a9a64ff6f0e4323fc046e86502b9c5656d81072c003b, 9785246520),
  (0xc1a7bd6247e86ccabb55c1bffdd0ade930bb7ffe63e8d836296fe893d2ff5b8b779ec06b5003b, 8938),
  (0xe8484298b26038fdeb538cb559611d998403e63611b679d67713cae7cf456abdf92adaacb7a9f2a26d810792003b, 11924341560),
  (0x10639932e615ea056a6a951d8b9e6a26a4e0866e309feff8b1c6d580fb0fd5d80764960dcfb571be86502b9c5656d81072c003b, 8940),
  (0x773bbc82074e02d14db53925581d307a3003b, 8814),
  (0xa1739dbbf976458b941b19e5a1bb93d736ae69e86502b9c5656d81072c003b, 8816),
  (0xb6438511349e84829232983c3b94c1e5f4bb1679e65a61be32709ea9b23472050792003b, 8824),
  (0x97f4583872513265401981c910b08b24e82c3db53925581d307a3003b, 9815327544),
  (0xda9e5ccbf32d62d0dd7bcfb9bf371dd2e2dd07af7fc45bef89acf457d71fdcae86502b9c5656d81072c003b, 12118197048),
  (0xa1739dbbf976458b941b19e5a1bb93d736afaee319d0b118ac70e406b5003b, 8820),
  (0x13a876f19d1aa90325adbc55e0d89e6dea9edf9a4fa5a7ae9c24e8c23e8ae504e50abd229860e3d50379f8e65a61be32709ea9b23472050792003b, 12159419192),
  (0xda9e5ccbf32d62d128422771433a99f4d597db06d9e97d3b8881c910b08b24e82c3db53925581d307a3003b, 12158305080),
  (0x97f4583872513265a80bfcc897da159a5ddd3b7ac7f24720507a3003b, 8832),
  (0xcdc239386c66f397f3cbdde1ca532a4030b527d91c17ffc8a90b08ae69e86502b9c5656d81072c003b, 12173902648)]

/-- part of `html5Table` -/
def html5Table3 : List (Nat × Nat) := [

  (0x1169d2c6147748a5ccfab2b85ebd9eb5a2fd83fa971651cee90ca686a9ecf7fc45bef89acf457d71fdcae86502b9c5656d81072c003b, 8928),
  (0xda9e5ccbf32d62d1bdced6e04ba4ece684366b57dab92fc37b4568152d68578327fe9b492557c2e07b4003b, 8716),
  (0xcdc239386c66f3983a2c1dcf5e23be48fbb32866f9ffe63e8d836296fe893d2ff5b8b779ec06b5003b, 8939),
  (0xf6ccc6c23d863c8ec7468a818adabf6d6a6794a6043d811b679d67713cae7cf456abdf92adaacb7a9f2a26d810792003b, 11925455672),
  (0x1169d2c6147748a5d2ef6a25c3dc0f21a851eeecf6ac96ebfeff8b1c6d580fb0fd5d80764960dcfb571be86502b9c5656d81072c003b, 8941),
  (0xc1a7bd6247e86ccba329bbe759e48ffd39cf742c257b6dcfec659d781e4ea9f03720507b4003b, 9856549688),
  (0x10639932e615ea057e0934c0f675a508b57587956825fbd508361b31931395c471cf4380c78fdcae86502b9c5656d81072c003b, 8930),
  (0xda9e5ccbf32d62d1e3321d202c7b068cde433225d65056f7b9deb6c5dc7c2fc328648fa9f03720507b4003b, 9857663800),
  (0x12806ff275bebd303348648dd63acf4ed4d9ae0faa92e14b7e4514b3124f35260505d2582902cf4380c78fdcae86502b9c5656d81072c003b, 8931),
  (0x869a6fceca3f112ee9dc659d781e4ea9f03720507b4003b, 9842073810),
  (0xb6438511349e84836c638b021931395c471cf4380c78fdcae86502b9c5656d81072c003b, 8840),
  (0x97f4583872513265f601ceb6c4b13bae3ddd3b7ac925570e407a3003b, 8833),
  (0xcdc239386c66f3985d5c5fed5e8fbd300aa5c5d91db7c94cb4c597ae69e86502b9c5656d81072c003b, 12175016760),
  (0x1169d2c6147748a5d5e9c8c066bcb0e40da2deaea53781f61e7585daa72bf7fc45bef89acf457d71fdcae86502b9c5656d81072c003b, 8929),
  (0xcdc239386c66f3985d5c5fed5e8fbd300aa5c5d91db7c94cb4c597afaee319d0b118ac70e406b5003b, 9838723896),
  (0x97f4583872513265f601ceb6c5dc7c2fc328648fa9f03720507b4003b, 9843187922),
  (0xcdc239386c66f3985d5c5fed6024f35260505d2582902cf4380c78fdcae86502b9c5656d81072c003b, 8841),
  (0x7eaf784a27c2e2ff0fe319d0b118ac70e406b5003b, 8769),
  (0xab8ad797b90da9e5380e1f41e47a890943bb173571be86502b9c5656d81072c003b, 8772),
  (0xda9e5ccbf32d62d208953763d8af0d9e979a720ef52447086d4d86ee70d82c2e86502b9c5656d81072c003b, 8775),
  (0xab8ad797b90da9e5380e1f41e47a890943bb1735860e319d0b118ac70e406b5003b, 8777),
  (0xb6438511349e8483c9e61249886325842ff6f28e09c7bab8893aa370f2a26d810792003b, 8740),
  (0x6367d69f036fc30792003b, 119977), (0x699e541d57bdf1979ec06a40065, 209),
  (0x7038395f2d39d0b118ac70e406b5003b, 209), (0x580e07c5003b, 925), (0x6af8f56ef8d18ac768906d7003b, 338),
  (0x6af8f7a9ea86bf3841507b40065, 211), (0x71a88724892f2b2bc56582f406b5003b, 211), (0x64ae166bf3768907920063, 212),
  (0x6af8f7d2b2adf1980b20693003b, 212), (0x5ec1f6fc30809003b, 1054), (0x71a887658820e4ea18ac6d810693003b, 336),
  (0x5ec1f73260792003b, 120082), (0x6af8f82442f8bd26d8107d60065, 210), (0x71a887a6872848f94591853606b5003b, 210),
  (0x6af8f89e9b445916fc30792003b, 332), (0x6af8f89e9b4925574470671003b, 937),
  (0x78c310ab0d52fdbb72b2b8bd27d4f074e003b, 927), (0x64ae17523f7e7006c6003b, 120134),
  (0x1099635ce118b97b0e1073e910eeb505c73f811b3d5f3b399d456b2d844c2db217d3adbdcfb581fe4361bbd523f82f406b5003b, 8220),
  (0xb899b7f220c8db543c78cf9028e4eb491e1702ebf9c18bb3e4361bbd523f82f406b5003b, 8216), (0x592f0792003b, 10836),
  (0x64ae179f036fc30792003b, 119978), (0x6af8f918f3b18ac6d8107a30068, 216),
  (0x71a888aa82eca373459181d306e8003b, 216), (0x6af8f92d57bdf1979ec06a40065, 213),
  (0x71a888c02d39d0b118ac70e406b5003b, 213), (0x71a888c02d39d0b12bdd720507a3003b, 10807),
  (0x5ec1f8415073d006c, 214), (0x64ae17c5657b0d072c003b, 214), (0x78c3117a39f42328648f6f2a26d810792003b, 8254),
  (0x885436bafb6c9bb09985ec7e97348f945916fc306b5003b, 9182),
  (0x99e711c915d59bc25d502ffae8b256167892f2b2b057b720507b4003b, 9140),
  (0xc423545195dc8f960f2de9bbcbc36cfd66ee7d32741497d7200c13168b7ad9f03768907a3003b, 9180),
  (0x81ef0a2cbff3d463032d39d0b0459179ec0484003b, 8706), (0x5ff506fc30809003b, 1055), (0x5ff5073260792003b, 120083),
  (0x5ff50756806f9003b, 934), (0x5a5006f9003b, 928), (0x8a0dfbed66934056218af173ae2d0b13f0e841507a3003b, 177),
  (0xaff0dcc0a29e1617ceb104f163b6f82311a7da15abf83f9a37345917c2e06b5003b, 8460), (0x65f458523f7e7006c6003b, 8473),
  (0x5a500792003b, 10939), (0x81ef0bcc897da159a5ddd3b7ac7f24720507a3003b, 8826),
  (0xaff0dd23fd6532a4030b527d91c17ffc8a90b08ae69e86502b9c5656d81072c003b, 10927),
  (0xee3cfc203a7f5881a2fd83fa971651cee90ca686a9ecf7fc45bef89acf457d71fdcae86502b9c5656d81072c003b, 8828),
  (0xaff0dd23fd6532a4030b527d91c17ffc8a90b08afaee319d0b118ac70e406b5003b, 8830),
  (0x6c539e148f9df197b0d06b5003b, 8243), (0x7a4a657536296d99e716cc5656fc307b4003b, 8719),
  (0x92aedc51e74711078f3e012274b4d8a5d57bdf197d4f074e003b, 8759),
  (0xa59766b876173a3988b4ff47e5c028933600d6dbc676373f0e6d81072c003b, 8733), (0x65f4589f036fc30792003b, 119979),
  (0x5ff5081d306f9003b, 936), (0x612815ff5053f0054, 34), (0x673a975f45592f0594003b, 34),
  (0x6128173260792003b, 120084), (0x673a99523f7e7006c6003b, 8474), (0x673a999f036fc30792003b, 119980),
  (0x6f08e461cc9459180b20792003b, 10512), (0x5c9204950047, 174), (0x625b24de504b7003b, 174),
  (0x75f97547892f2b2bc56582f406b5003b, 340), (0x6880d945917c2e06d7003b, 10219), (0x6880d9459180b20792003b, 8608),
  (0x75f97547894248fa8bd282f4072c003b, 10518), (0x75f97572ddce9ea98bd27d4f074e003b, 344),
  (0x75f97572ddd3b7ac7f247689072c003b, 342), (0x625b26fc30809003b, 1056), (0x5c9206b5003b, 8476),
  (0xbf9c4ea843864ece684366b57dab92fc37b4568152d68578327fe9b492557c2e07b4003b, 8715),
  (0xf431b2da3eb62d74db2e4de8321d65bd80f9caf2af7e25291e2880008262e2bc9714339348f9df198415073d003b, 8651),
  (0x113ac1ae860cba950eb6f45f320932fdaee9c311e8a8050b8d3cdc925291e2880008262e2bc9714339348f9df198415073d003b, 10607),
  (0x625b273260792003b, 8476), (0x625b27568075f003b, 929),
  (0xe5d46cc1872b17764410e0df03d2d66ca28ae6e0588d65977bd0d218b256167892f2b2b057b720507b4003b, 10217),
  (0x9659a08cc2fd89a0e78bdccbfd743f2248fa8bd27d4f07e7003b, 8594),
  (0xb456e122d6a23be48fbb32866db23efa0fa90556296d9b6a83bf2a26d810792003b, 8677),
  (0x10374cec67997a57c82d70ddbc35104196f8a8cc38c29fdee9b36123fce5a07d9f51e9fd743f2248fa8bd27d4f07e7003b, 8644),
  (0xa9bb2e3ee820385ea564e442495125bde25a27dbc2a373df197c2e06d7003b, 8969),
  (0xf431b38d9f9dc8eda851eeecf47994515481259ff960ce5f723477bd0d218b256167892f2b2b057b720507b4003b, 10215),
  (0xf431b38d9f9dc8eda851eeecf4799451548163f727ca7a5eec6f0a286529e14fb32232732b2bb2347d4f0792003b, 10589),
  (0xcb961428544d259d06425409c22e3b8feee9de1a1425b5248b32232732b2bb2347d4f0792003b, 8642),
  (0xf431b38d9f9dc8eda851eeecf4799451548163f727ca7a962535d34a343f81970158d9b048f6f2a26d810792003b, 10581),
  (0x9659a08cc2fd89a0e78bdccbfde092afa374523f7d4f0792003b, 8971),
  (0x852e9e296c0f88f8d4317bd57a4c14720506b5003b, 8866),
  (0xb456e122d6a23be48fbb32866f9ffe50098f6e456c53f2248fa8bd27d4f07e7003b, 8614),
  (0xbf9c4f35040c5fa2d8b6e5aed699fe350a286529e14fb32232732b2bb2347d4f0792003b, 10587),
  (0xb456e122d6a23be48fbb32866f9ffe63e8d836296fe893d2ff5b8b779ec06b5003b, 8883),
  (0xd84f756ad991f7f6d6a6794a6043d811b679d67713cae7cf456abdf92adaacb7a9f2a26d810792003b, 10704),
  (0xf431b38d9f9dc8eda851eeecf6ac96ebfeff8b1c6d580fb0fd5d80764960dcfb571be86502b9c5656d81072c003b, 8885),
  (0xe5d46cc1872b17764410e0df066933d3e43bdbe9a3aee9de1a1425b5248b32232732b2bb2347d4f0792003b, 10575),
  (0xd84f756ad991f7f6d6a6794a6063039a403a1047b10a286529e14fb32232732b2bb2347d4f0792003b, 10588),
  (0xb456e122d6a23be48fbb32866fb9fafaa23dd2ab32232732b2bb2347d4f0792003b, 8638),
  (0xd84f756ad991f7f6d6a6794a6063039a403a478077d34a343f81970158d9b048f6f2a26d810792003b, 10580),
  (0x9fbf3a958f2d623af6049a98bf2eeb32232732b2bb2347d4f0792003b, 8640),
  (0xbf9c4f35040c5fa2d8b6e5aed6d136fbd34a343f81970158d9b048f6f2a26d810792003b, 10579),
  (0x9659a08cc2fd89a0e78bdccc0029894248fa8bd27d4f07e7003b, 8658), (0x6880da523f7e7006c6003b, 8477),
  (0xa9bb2ef9ed831ef1d88deca1161bd56a0ad5c783f9a373df19720507a3003b, 10608)]

/-- part of `html5Table` -/
def html5Table4 : List (Nat × Nat) := [
  (0x9fbf3b9d96a74771d89a0e78bdccc0029894248fa8bd27d4f07e7003b, 8667), (0x6880da9f036fc30792003b, 8475),
  (0x625b281d306e8003b, 8625), (0x9fbf3bf599294552777bd3e0c03535a68daa79eaa1229720506a4003b, 10740),
  (0x7769c28ae71d630865c86fc30809003b, 1065), (0x69c71865c86fc30809003b, 1064),
  (0x7769c3228f5835cc4c146fc30809003b, 1068), (0x7769c4a8892f2b2bc56582f406b5003b, 346), (0x5db30693003b, 10940),
  (0x7769c4d3ddce9ea98bd27d4f074e003b, 352), (0x7769c4d3ddd3b7ac7f247689072c003b, 350),
  (0x70638c12b2adf1980b20693003b, 348), (0x638e36fc30809003b, 1057), (0x638e373260792003b, 120086),
  (0xc1f281cf9013c35a5d8175c421ca380efefa3a72e5c9212e3f2248fa8bd27d4f07e7003b, 8595),
  (0xc1f281cf9013c35a5d8175c422a71b19e5a07d9f51e9fd743f2248fa8bd27d4f07e7003b, 8592),
  (0xce11a9ec8914ff9003598d20658191cc0c2fd89a0e78bdccbfd743f2248fa8bd27d4f07e7003b, 8594),
  (0xabcd126f39a56fecd5edce2ff50964afa7bff03f2248fa8bd27d4f07e7003b, 8593), (0x70638c8d0b0b8b77b0d0671003b, 931),
  (0xa1b1f3ce304482fe5840957e5ac10cf45dbca48f96bf379ec06b5003b, 8728), (0x69c71b523f7e7006c6003b, 120138),
  (0x69c71b78a180b207b4003b, 8730), (0x7769c6032e561bbc459180b206b5003b, 9633),
  (0xf72c1174e19eb92540cce00ebea85b7da5cd87d1dc4c069560e3d507ae20c31259a5dde6d57bdf197d4f074e003b, 8851),
  (0xabcd1387c19e48ffd39cf742c257b6dcfec659d781e4ea9f03720507b4003b, 8847),
  (0xe8a1f24fe36835c8b57587956825fbd508361b31931395c471cf4380c78fdcae86502b9c5656d81072c003b, 8849),
  (0xc1f2830c4193b068cde433225d65056f7b9deb6c5dc7c2fc328648fa9f03720507b4003b, 8848),
  (0x1069ed28c2fb8a4b794d9ae0faa92e14b7e4514b3124f35260505d2582902cf4380c78fdcae86502b9c5656d81072c003b, 8850),
  (0xa1b1f443890d71e1b81b4311a7da158768d712ff5df197d4f074e003b, 8852), (0x69c71b9f036fc30792003b, 119982),
  (0x69c71bb2346d810792003b, 8902), (0x638e384150682003b, 8912), (0x7769c659d781e4ea9f03720507b4003b, 8912),
  (0xa1b1f4b8e1931395c471cf4380c78fdcae86502b9c5656d81072c003b, 8838),
  (0x86ce68eb6c4b13bae3ddd3b7ac925570e407a3003b, 8827),
  (0xb689e544b6a8fbd300aa5c5d91db7c94cb4c597ae69e86502b9c5656d81072c003b, 10928),
  (0xf72c1228427e6ab00da2deaea53781f61e7585daa72bf7fc45bef89acf457d71fdcae86502b9c5656d81072c003b, 8829),
  (0xb689e544b6a8fbd300aa5c5d91db7c94cb4c597afaee319d0b118ac70e406b5003b, 8831),
  (0x86ce68eb6c4b13bb5031530d5bcbe86d8107b4003b, 8715), (0x638e38415073d003b, 8721), (0x638e384150770003b, 8913),
  (0x86ce68eb6c5dc7c2fc328648fa9f03720507b4003b, 8835),
  (0xb689e544b6c24f35260505d2582902cf4380c78fdcae86502b9c5656d81072c003b, 8839),
  (0x7769c659d793bc789f03720507b4003b, 8913), (0x6b0d5965c8592f0572004e, 222),
  (0x71be2efc24dec1f5c92052e003b, 222), (0x71be2fc80d6df714cc40495003b, 8482),
  (0x71be2fdc71865c86fc30809003b, 1035), (0x6b0d5a38e36fc30809003b, 1062), (0x64c146d810682003b, 9),
  (0x64c146d8107c5003b, 932), (0x78da1434ddce9ea98bd27d4f074e003b, 356), (0x78da1434ddd3b7ac7f247689072c003b, 354),
  (0x64c146fc30809003b, 1058), (0x64c1473260792003b, 120087),
  (0x90f5145e9853aad099861be3276fdee523f80b206b5003b, 8756), (0x71be3188a6f925582f40671003b, 920),
  (0x9a0465a481df64a2a64374a4349138d1bc7745916fc306b5003b, 9232654346),
  (0x90f5145e9859c82199b22b438d1bc7745916fc306b5003b, 8201), (0x71be319d0b118ac70e406b5003b, 8764),
  (0x9a0465c01e47a890943bb173571be86502b9c5656d81072c003b, 8771),
  (0xc448b4b07c56f0d9e979a720ef52447086d4d86ee70d82c2e86502b9c5656d81072c003b, 8773),
  (0x9a0465c01e47a890943bb1735860e319d0b118ac70e406b5003b, 8776), (0x6b0d5c523f7e7006c6003b, 120139),
  (0x90f51562765b98c1c7bc393daacb7aa19047d4f07b4003b, 8411), (0x6b0d5c9f036fc30792003b, 119983),
  (0x78da158f82f6d57c8bd27d4f071b003b, 358), (0x7318d609ea86bf3841507b40065, 218),
  (0x7a4a636a892f2b2bc56582f406b5003b, 218), (0x6c539c459180b20792003b, 8607),
  (0x8a0dfa3b44f3d462d7d89f76366bf376890792003b, 10569), (0x7318d61e4ea8bd26fc30809003b, 1038),
  (0x7a4a6380339348f99255853606b5003b, 364), (0x6c539c6bf3768907920063, 219), (0x7318d632b2adf1980b20693003b, 219),
  (0x65f456fc30809003b, 1059), (0x7a4a63ab8820e4ea18ac6d810693003b, 368), (0x65f4573260792003b, 120088),
  (0x7318d68442f8bd26d8107d60065, 217), (0x7a4a63ec872848f94591853606b5003b, 217),
  (0x7318d6fe9b445916fc30792003b, 362), (0x8a0dfb7939666d0a70328648f6f2a26d810792003b, 95),
  (0x9bd9c8e3d9cca118c8a909985ec7e97348f945916fc306b5003b, 9183),
  (0xaff0dbc938e001dcfa86d3d502ffae8b256167892f2b2b057b720507b4003b, 9141),
  (0xe039640a0c84b33fe0234dfd0c9bbcbc36cfd66ee7d32741497d7200c13168b7ad9f03768907a3003b, 9181),
  (0x7318d712ff5df197d4f074e003b, 8899), (0x92aedb30cd047881b0b745e2f33f45818ac841507a3003b, 8846),
  (0x7318d727636b8b77d4f074e003b, 370), (0x6c539d523f7e7006c6003b, 120140),
  (0x81ef0afa7bff03f2248fa8bd27d4f07e7003b, 8593), (0x9bd9c91b125a91aba0fa90556296d9b6a83bf2a26d810792003b, 10514),
  (0xe03964597ef01d4dfc90e4cc38c29fdee9b28440f1fefa3a72e5c9212e3f2248fa8bd27d4f07e7003b, 8645),
  (0xa59765acc3856818afefa3a72e5c9212e3f2248fa8bd27d4f07e7003b, 8597),
  (0xbaefe9c808bb8d3cdc925291e2880008262e2bc9714339348f9df198415073d003b, 10606),
  (0x7318d73bc764c14720506b5003b, 8869), (0x9bd9c91b12796da10098f6e456c53f2248fa8bd27d4f07e7003b, 8613),
  (0x81ef0afa7c2a5894248fa8bd27d4f07e7003b, 8657),
  (0xa59765acc3bca0df7911a3a72e5c923e3894248fa8bd27d4f07e7003b, 8661),
  (0xc69ee86489a047688e50562f7976bfd7e5a07d9f51e9fd743f2248fa8bd27d4f07e7003b, 8598),
  (0xd308d6ead23a4bdf17355b9271be30d5ec2fd89a0e78bdccbfd743f2248fa8bd27d4f07e7003b, 8599),
  (0x6c539d657081d306f9003b, 978), (0x81ef0afa7c42b82e8d0b118ac7d4f074e003b, 933),
  (0x7318d7648f9df197c2e06d7003b, 366), (0x6c539d9f036fc30792003b, 119984),
  (0x7a4a65062d39d0b118ac70e406b5003b, 360), (0x65f458415073d006c, 220), (0x6c539dc5657b0d072c003b, 220),
  (0x747378ca94b459181d306e8003b, 8875), (0x6d99dd58c26d810792003b, 10987), (0x672766fc30809003b, 1042),
  (0x74737b5716b459181d306e8003b, 8873), (0x7bbab30c881f9ea99f037568072c003b, 10982), (0x67276720506b5003b, 8897),
  (0x7bbab322328648f958c26d810792003b, 8214), (0x6d99dd925580b207b4003b, 8214),
  (0xa78a1d2d5886325842ff6f28e09c7bab8893aa370f2a26d810792003b, 8739),
  (0xb202bf002e0e957dc72f661b6ea64366411ce4da8cdb53df197c2e06b5003b, 124),
  (0xf10a7d0b854d6853429f4e00d99cbf2c091f6900bd9f4c9a5987233ecfe1d66d88d9ea9b2347d4f0792003b, 10072),
  (0xbd22eaf030ef7ed5a3a25c7d2590a79ca52eb328407e319d0b118ac70e406b5003b, 8768),
  (0xbd22eaf030ef7ed63651084625ee9859c82199b22b438d1bc7745916fc306b5003b, 8202)]

/-- part of `html5Table` -/
def html5Table5 : List (Nat × Nat) := [
  (0x6727673260792003b, 120089), (0x6d99de523f7e7006c6003b, 120141), (0x6d99de9f036fc30792003b, 119985),
  (0x7bbab49281d5716b459181d306e8003b, 8874), (0x75ce2052b2adf1980b20693003b, 372),
  (0x75ce207b7ac7f24744706b5003b, 8896), (0x685a773260792003b, 120090), (0x6ee01f523f7e7006c6003b, 120142),
  (0x6ee01f9f036fc30792003b, 119986), (0x698d873260792003b, 120091), (0x635806f9003b, 926),
  (0x702660523f7e7006c6003b, 120143), (0x7026609f036fc30792003b, 119987), (0x716c9ddf716fc30809003b, 1071),
  (0x716c9e78f96fc30809003b, 1031), (0x716c9f5f456fc30809003b, 1070), (0x78836a49ea86bf3841507b40065, 221),
  (0x800ba0ee892f2b2bc56582f406b5003b, 221), (0x78836a72b2adf1980b20693003b, 374), (0x6ac096fc30809003b, 1067),
  (0x6ac0973260792003b, 120092), (0x716ca1523f7e7006c6003b, 120144), (0x716ca19f036fc30792003b, 119988),
  (0x716ca1c5657b0d072c003b, 376), (0x72b2df65c86fc30809003b, 1046), (0x817bf04f892f2b2bc56582f406b5003b, 377),
  (0x817bf07addce9ea98bd27d4f074e003b, 381), (0x6bf3a6fc30809003b, 1047), (0x72b2e17f247d4f07b4003b, 379),
  (0xd24de496247ee6466202a43d634c271daa4537880cd4466e38d1bc7745916fc306b5003b, 8203),
  (0x72b2e1925582f40671003b, 918), (0x6bf3a73260792003b, 8488), (0x72b2e2523f7e7006c6003b, 8484),
  (0x72b2e29f036fc30792003b, 119989), (0x835892c9ea86bf3841507b40065, 225),
  (0x8b8e1bf6892f2b2bc56582f406b5003b, 225), (0x8b8e1c0c339348f99255853606b5003b, 259), (0x6d810693003b, 8766),
  (0x745916fc30495003b, 9766306611), (0x745916fc306a4003b, 8767), (0x7b9ea86bf3768907920063, 226),
  (0x835892f2b2adf1980b20693003b, 226), (0x7b9ea86bf3841507b40065, 180), (0x835892f2b2bc56582f406b5003b, 180),
  (0x745916fc30809003b, 1072), (0x7b9ea8925579ec06f90067, 230), (0x8358931b7ad18ac768906d7003b, 230),
  (0x6d8106c6003b, 8289), (0x7459173260792003b, 120094), (0x8358934442f8bd26d8107d60065, 224),
  (0x8b8e1c78872848f94591853606b5003b, 224), (0x9446feb3285783276fdee9f038899073d003b, 8501),
  (0x835893aa37392557e7006e8003b, 8501), (0x835893aa374657075680671003b, 945),
  (0x835893be9b445916fc30792003b, 257), (0x835893be9b4459179ec06d7003b, 10815), (0x6d81073d0070, 38),
  (0x745917b0d0770003b, 38), (0x745917c2e06a4003b, 8743), (0x8b8e1d102f4d716b45917c2e06a4003b, 10837),
  (0x7b9ea93f0e70e406a4003b, 10844), (0x9d8b6ecf45666d0b9f82eca374523f7e7006b5003b, 10840),
  (0x7b9ea93f0e70e407d6003b, 10842), (0x745917c2e06d7003b, 8736), (0x7b9ea93f0e744706b5003b, 10660),
  (0x835893d2ff5b8b779ec06b5003b, 8736), (0x8b8e1d102f51442f2bdd81d306a4003b, 8737),
  (0x9d8b6ecf456abdf940850f8f3a7f246d810671003b, 10664), (0x9d8b6ecf456abdf940850f8f3a7f246d810682003b, 10665),
  (0x9d8b6ecf456abdf940850f8f3a7f246d810693003b, 10666), (0x9d8b6ecf456abdf940850f8f3a7f246d8106a4003b, 10667),
  (0x9d8b6ecf456abdf940850f8f3a7f246d8106b5003b, 10668), (0x9d8b6ecf456abdf940850f8f3a7f246d8106c6003b, 10669),
  (0x9d8b6ecf456abdf940850f8f3a7f246d8106d7003b, 10670), (0x9d8b6ecf456abdf940850f8f3a7f246d8106e8003b, 10671),
  (0x835893d2ff5b8b780b207b4003b, 8735), (0x9446fee132465872848fab23485360682003b, 8894),
  (0x9d8b6ecf456abdf9acd8a5d57cd8966ea206a4003b, 10653), (0x8b8e1d102f51442f9f037e7006e8003b, 8738),
  (0x835893d2ff5b8b781d307b4003b, 197), (0x9446fee13246587327b01459180b20792003b, 9084),
  (0x835893e7636b8b77d4f074e003b, 261), (0x7b9ea9523f7e7006c6003b, 120146), (0x6d810770003b, 8776),
  (0x745917e700495003b, 10864), (0x8b8e1d3b83eb9ea86bf376890792003b, 10863), (0x745917e7006b5003b, 8778),
  (0x7b9ea96570768906a4003b, 8779), (0x7b9ea965707d4f07a3003b, 39), (0x8b8e1d3b83febc788bd27d4f07f8003b, 8776),
  (0x9d8b6f00300292c415d89f7637fef872050781003b, 8778), (0x7b9ea98bd27689074e0067, 229),
  (0x835894248f9df197c2e06d7003b, 229), (0x7b9ea99f036fc30792003b, 119990), (0x7459181d307b4003b, 42),
  (0x83589438f3c12297b0d0770003b, 8776), (0x9446ff544b2d080d3e9b5657072050781003b, 8781),
  (0x8358944d57bdf1979ec06a40065, 227), (0x8b8e1d922d39d0b118ac70e406b5003b, 227), (0x745918415073d006c, 228),
  (0x7b9ea9c5657b0d072c003b, 228), (0x9d8b6fab64d5f5bbe7d9ab2ff5df197c2e07b4003b, 8755),
  (0x8358948a83edf197c2e07b4003b, 10769), (0x7ce4e7d8ee7d4f07b4003b, 10989),
  (0x9f2b372dd1de3fbb9130592b2b523f7c2e06d7003b, 8780),
  (0xbeeac5df658aa451ead61103006b7c42b82e8d0b118ac7d4f074e003b, 1014),
  (0xa91deaa0aefc23b74a43705840148f9df197b0d06b5003b, 8245), (0x95ce520d01c21dddb5d339f037689073d003b, 8765),
  (0xa91deaa0aefc23b74a4374682e8d0b12bdd72050781003b, 8909), (0x8cfe6b57894248fad896720506b5003b, 8893),
  (0x8cfe6b57894248faebc7720506a4003b, 8965), (0x9f2b372dd1f3d463442c27b7ac7f24744706b5003b, 8965),
  (0x7ce4e958c280b2071b003b, 9141), (0x9f2b37464739456240306ed57b58c280b2071b003b, 9142),
  (0x84b33802b2b523f7c2e06d7003b, 8780), (0x758c26fc30809003b, 1073), (0x84b3381716c78a18415075f003b, 8222),
  (0x8cfe6bae32732b2a4591841507a3003b, 8757), (0x95ce5269159a5ddce9ea9c56581d306b5003b, 8757),
  (0x95ce526915a7e850bbc78b234889907d6003b, 10672)]

/-- part of `html5Table` -/
def html5Table6 : List (Nat × Nat) := [
  (0x84b3382b7ad657081d306f9003b, 1014), (0x8cfe6bae328648fa3f0e7d4f07c5003b, 8492),
  (0x7ce4e9925582f40671003b, 946), (0x7ce4e9925582f406e8003b, 8502),
  (0x95ce526915b162d4ba83e92557205074e003b, 8812), (0x758c273260792003b, 120095),
  (0x8cfe6c04dbbc442e6bf36d810770003b, 8898), (0x95ce52c52978087152b2adf1980b20693003b, 9711),
  (0x8cfe6c04dbbc442e6bf384150770003b, 8899), (0x95ce52c529780872476367f247d4f07b4003b, 10752),
  (0x9f2b37f17c0f88f96bd9adbc7818ac841507a3003b, 10753),
  (0xa91deb7093d0818902974e02d39d0b12bdd720507a3003b, 10754),
  (0x9f2b37f17c0f88f9c282f302b86bf384150770003b, 10758), (0x95ce52c52978087298f3bb2346d810792003b, 9733),
  (0xf34f72c1d26eff8f93ad8bc216f5de8507964c39c169d8bd885783274716c523f8657074e003b, 9661),
  (0xd7870a6a23d10ce5efc522551e1524c7558ee1324658720a373925584150770003b, 9651),
  (0x9f2b37f17c0f88f9edd793bc7818ac841507a3003b, 10756), (0x8cfe6c04dbbc442fd896720506b5003b, 8897),
  (0x9f2b37f17c0f88fa192c27b7ac7f24744706b5003b, 8896), (0x8cfe6c3030569ea98bd27d4f07e7003b, 10509),
  (0xcad973943ae5e5a594451ead61bb64eb5e75622b1ab7ad3f0e744706b5003b, 10731),
  (0xbeeac7221950d8235e5f2bee7abaeb2232e561bbc459180b206b5003b, 9642),
  (0xd7870acd7e9443ffed89709838a7000cead836296fe893d2ff5b8b779ec06b5003b, 9652),
  (0x112acb10b6d5df23d2c7855476ecb0c777656f5de8507964c39c169d8bd885783274716c523f8657074e003b, 9662),
  (0x112acb10b6d5df23d2c7855476ecb0c777656f5de8507964c39c169d8bd88578327ea3739255732607b4003b, 9666),
  (0x123d77c1c2433d160ff3fda9be5b7bd3eedbc653c6d580fb0fd5d80764960dcfb5aead897d0b0b8b7756807b4003b, 9656),
  (0x84b338ba37345917c2e071b003b, 9251), (0x84b338ba374057b37510352003b, 9618),
  (0x84b338ba374057b37510374003b, 9617), (0x84b338ba374057b39930374003b, 9619),
  (0x84b338ba374523f6fc3071b003b, 9608), (0x758c27c2e06b5003b, 67969253),
  (0x95ce53384243a328502b9c565768907d6003b, 9805308133), (0x7ce4ea3f0e7d4f07b4003b, 8976),
  (0x7ce4ea523f7e7006c6003b, 120147), (0x758c27d4f07b4003b, 8869), (0x8cfe6c86d9b2d57cb2347d4f073d003b, 8869),
  (0x8cfe6c86d9b6a83fb234768906b5003b, 8904), (0x84b338f7637fef84cc4050c003b, 9559),
  (0x84b338f7637fef84cc40572003b, 9556), (0x84b338f7637fef84cc4072c003b, 9558),
  (0x84b338f7637fef84cc40792003b, 9555), (0x7ce4ea523f877804c8003b, 9552), (0x84b338f7637fef851480484003b, 9574),
  (0x84b338f7637fef8514805a5003b, 9577), (0x84b338f7637fef8514806a4003b, 9572),
  (0x84b338f7637fef8514807c5003b, 9575), (0x84b338f7637fef85ff5050c003b, 9565),
  (0x84b338f7637fef85ff50572003b, 9562), (0x84b338f7637fef85ff5072c003b, 9564),
  (0x84b338f7637fef85ff50792003b, 9561), (0x7ce4ea523f877805b6003b, 9553), (0x84b338f7637fef8611604c8003b, 9580),
  (0x84b338f7637fef86116050c003b, 9571), (0x84b338f7637fef861160572003b, 9568),
  (0x84b338f7637fef8611606e8003b, 9579), (0x84b338f7637fef86116072c003b, 9570),
  (0x84b338f7637fef861160792003b, 9567), (0x8cfe6c86d9b7ee7f58c27d4f07f8003b, 10697),
  (0x84b338f7637fef870e4050c003b, 9557), (0x84b338f7637fef870e40572003b, 9554),
  (0x84b338f7637fef870e4072c003b, 9488), (0x84b338f7637fef870e40792003b, 9484), (0x7ce4ea523f877806e8003b, 9472),
  (0x84b338f7637fef875680484003b, 9573), (0x84b338f7637fef8756805a5003b, 9576),
  (0x84b338f7637fef8756806a4003b, 9516), (0x84b338f7637fef8756807c5003b, 9524),
  (0x9f2b38843bc8a43eb18502d0b13f0e841507a3003b, 8863), (0x95ce534f47536d686bc7818ac841507a3003b, 8862),
  (0x9f2b38843bc8a43f492d39d0b12bdd720507a3003b, 8864), (0x84b338f7637fef88415050c003b, 9563),
  (0x84b338f7637fef884150572003b, 9560), (0x84b338f7637fef88415072c003b, 9496),
  (0x84b338f7637fef884150792003b, 9492), (0x7ce4ea523f877807d6003b, 9474), (0x84b338f7637fef8853604c8003b, 9578),
  (0x84b338f7637fef88536050c003b, 9569), (0x84b338f7637fef885360572003b, 9566),
  (0x84b338f7637fef8853606e8003b, 9532), (0x84b338f7637fef88536072c003b, 9508),
  (0x84b338f7637fef885360792003b, 9500), (0x8cfe6c9c840148f9df197b0d06b5003b, 8245),
  (0x84b339348f99255853606b5003b, 728), (0x84b339348fad8966ea206710072, 166),
  (0x8cfe6cc7d8a861fd58c26d810792003b, 166), (0x7ce4ea9f036fc30792003b, 119991),
  (0x84b33948f3a92557b0d06f9003b, 8271), (0x7ce4ea9f037689073d003b, 8765), (0x84b33948f3adf197b0d06b5003b, 8909),
  (0x7ce4ea9f037d4f072c003b, 92), (0x84b33948f3b523f79ec0682003b, 10693),
  (0x9f2b38e610d1757432dab08a709f0384150682003b, 10184), (0x7ce4eac56579ec072c003b, 8226),
  (0x8cfe6d08d78ea37418ac720507b4003b, 8226), (0x7ce4eac5657b0d0770003b, 8782),
  (0x84b33971bbd2bdd7e700495003b, 10926), (0x84b33971bbd2bdd7e7006b5003b, 8783),
  (0x8cfe6d08d78fe9b5657072050781003b, 8783), (0x8e6ebab8892f2b2bc56582f406b5003b, 263),
  (0x76bf36d810770003b, 8745), (0x8e6ebab8893fbc7745917c2e06a4003b, 10820),
  (0xa0cb00ca52f0f3c2bb339348f96bf384150770003b, 10825), (0x8e6ebab8893fbc776bf36d810770003b, 10827),
  (0x8e6ebab8893fbc776bf384150770003b, 10823), (0x8e6ebab8893fbc777f247d4f07b4003b, 10816),
  (0x7e2b2a45917e7007a3003b, 9742974464), (0x860ddce9ea98bd2720507b4003b, 8257),
  (0x860ddce9ea98bd27d4f074e003b, 711), (0x860ddd12b2a45917e7007a3003b, 10829),
  (0x8e6ebae3ddce9ea98bd27d4f074e003b, 269), (0x860ddd12b2a925570e406f9006c, 231),
  (0x8e6ebae3ddd3b7ac7f247689072c003b, 231), (0x860ddd12b2adf1980b20693003b, 265),
  (0x860ddd12b2bc5657e7007a3003b, 10828), (0x9755a6921bc69d793bc789f0381d3073d003b, 10832),
  (0x7e2b2a7f247d4f07b4003b, 267), (0x7e2b2a925570e406f9006c, 184), (0x860ddd3b7ac7f247689072c003b, 184),
  (0x9755a6c025a7e850bbc78b234889907d6003b, 10674)]

/-- part of `html5Table` -/
def html5Table7 : List (Nat × Nat) := [
  (0x76bf37205074e0074, 162), (0x7e2b2a92557c2e07b4003b, 162),
  (0xaad7b13eea841497d720080328648f97f247d4f07b4003b, 183), (0x76bf373260792003b, 120096),
  (0x7e2b2acbe86fc30809003b, 1095), (0x860ddd78a6f92556fc3071b003b, 10003),
  (0xaad7b18ce043aacf403bb913065e9b4459180b2071b003b, 10003), (0x76bf3756806f9003b, 967),
  (0x76bf376890792003b, 9675), (0x7e2b2adf1980b20495003b, 10691), (0x7e2b2adf1980b20693003b, 710),
  (0x8e6ebb65dbca48f96bf372050781003b, 8791),
  (0xf5cb08ab6a694e48d1affbcc9effc2fc3c2e742c395ab8c0475212c30a3739255732607b4003b, 8634),
  (0x10527b936210fe32d5ecafb8968efbf2bfff15b6efcf0644c4bc733efbcd897d0b0b8b7756807b4003b, 8635),
  (0xa0cb018dfd1f5c6192dddca373925570e40572003b, 174), (0xa0cb018dfd1f5c6192dddca373925570e40583003b, 9416),
  (0xb5852cc14ac0674a26cc761485783274716b459181d307b4003b, 8859),
  (0xc0dd7f8d5f6c6dbec9393d75cdcfb59bb88222b2adf1980b20693003b, 8858),
  (0xc0dd7f8d5f6c6dbec9393d75cdcfb59bb8823716b459181d306e8003b, 8861), (0x7e2b2adf1980b206b5003b, 8791),
  (0xa0cb018dfd1f5c61d3dcd22ff5df197c2e07b4003b, 10768), (0x8e6ebb65dbca48fa2bdd768906a4003b, 10991),
  (0x9755a71c3986ed8a48f3a6bf376890792003b, 10690), (0x860dddca374c5656ea207a3003b, 9827),
  (0xa0cb01d75cf4004fa033948f3bc565768907b4003b, 9827), (0x860dde0763718ac7d4f074e003b, 58),
  (0x8e6ebbe7d9a8a374523f7c2e06b5003b, 8788), (0x9755a7a657432dab976373f0e72050781003b, 8788),
  (0x860dde076372bdd7b0d0671003b, 44), (0x8e6ebbe7d9a9e9b52bdd6d8107b4003b, 64), (0x7e2b2b523f7b0d0770003b, 8705),
  (0x8e6ebbe7d9a9e9b565707326074e003b, 8728), (0xb5852d66f50ca3c1563bfcd18578327fe9b492557c2e07b4003b, 8705),
  (0xaad7b242c8845de323fc393daacb7adfef8720507a3003b, 8450), (0x7e2b2b523f7c2e06d7003b, 8773),
  (0x9755a7a65745e2f51442e7f247d4f07b4003b, 10861), (0x8e6ebbe7d9ab2ff5df197c2e07b4003b, 8750),
  (0x7e2b2b523f7e7006c6003b, 120148), (0x8e6ebbe7d9adbc788bd27d4f06a4003b, 8720), (0x76bf37d4f07700079, 169),
  (0x7e2b2b523f7e700809003b, 169), (0x8e6ebbe7d9adbc79122981d30792003b, 8471),
  (0x860dde448f9459180b20792003b, 8629), (0x860dde448fa523f81d307a3003b, 10007),
  (0x7e2b2b9f036fc30792003b, 119992), (0x7e2b2b9f0384150682003b, 10959), (0x860dde58f3bc5656ea206b5003b, 10961),
  (0x7e2b2b9f0384150770003b, 10960), (0x860dde58f3bc5657e7006b5003b, 10962), (0x860dde6d57b7f247d4f07b4003b, 8943),
  (0x9755a83074fcb881f9ea98bd280b2072c003b, 10552), (0x9755a83074fcb881f9ea98bd280b20792003b, 10549),
  (0x860dde81bbc92557e700792003b, 8926), (0x860dde81bbc925581d30693003b, 8927),
  (0x8e6ebc69d78ea373459180b20792003b, 8630), (0x9755a83075078daa79ea98bd280b20770003b, 10557),
  (0x76bf384150770003b, 8746), (0xa0cb02b37c5dc7c2bb339348f96bf36d810770003b, 10824),
  (0x8e6ebc69d793bc776bf36d810770003b, 10822), (0x8e6ebc69d793bc776bf384150770003b, 10826),
  (0x8e6ebc69d793bc777f247d4f07b4003b, 8845), (0x860dde81bbd65707d4f0792003b, 10821),
  (0x7e2b2bc5657e7007a3003b, 9744088576), (0x8e6ebc69d79648f9459180b20792003b, 8631),
  (0x9755a830750fad88d9ea98bd280b2073d003b, 10556),
  (0xc0dd80ed695faff8731ab95da63b85ad52e4fbc788bd272050693003b, 8926),
  (0xc0dd80ed695faff8731ab95da63b85ad52e538f3bc5656fc30693003b, 8927),
  (0xa0cb02b37c60a86255dac634c1d896720506b5003b, 8910),
  (0xb5852e0c9f691e1702ebf9c18eeb2c27b7ac7f24744706b5003b, 8911), (0x860dde81bbd8bd280b206b5006e, 164),
  (0x8e6ebc69d79648fa8bd27205074e003b, 164),
  (0xe755af74c4345603294393587cadc2e742c395ab8c0475212c30a3739255732607b4003b, 8630),
  (0xf5cb0a6c10779b635bd7cc8e04789f15b6efcf0644c4bc733efbcd897d0b0b8b7756807b4003b, 8631),
  (0x860dde81bbdd896720506b5003b, 8910), (0x860dde81bbdebc7720506a4003b, 8911),
  (0xa0cb02e466d5f5bbe7d9ab2ff5df197c2e07b4003b, 8754), (0x860ddeaa83edf197c2e07b4003b, 8753),
  (0x8e6ebcc080d2a3736bf382f40809003b, 9005), (0x7f7168df7180b20792003b, 8659), (0x7f716965c86d810792003b, 10597),
  (0x8fdf0a198934442eb8b772050792003b, 8224), (0x8fdf0a19893aa373925582f406e8003b, 8504),
  (0x7f716b459180b20792003b, 8595), (0x7f716b459181d306e8003b, 8208), (0x876881f9ea99f03756807d6003b, 8867),
  (0x98dcfad226c3030569ea98bd27d4f07e7003b, 10511), (0x8768820e4ea18ac6d810693003b, 733),
  (0x8fdf0a44ddce9ea98bd27d4f074e003b, 271), (0x77f246fc30809003b, 1076), (0x70e406a4003b, 8518),
  (0x98dcfb0030a198934442eb8b772050792003b, 8225), (0x8768823716b459180b20792003b, 8650),
  (0x98dcfb0030b48d9b2d57c9f0372050781003b, 10871), (0x70e406b50067, 176), (0x77f24720506d7003b, 176),
  (0x8768824b7ad18ac82f40671003b, 948), (0x98dcfb1735a7e850bbc78b234889907d6003b, 10673),
  (0x8fdf0a85dccbd0b19f03756807b4003b, 10623), (0x77f2473260792003b, 120097),
  (0x87688288a6f459180b2072c003b, 8643), (0x87688288a6f459180b20792003b, 8642), (0x7f716bdf196d81073d003b, 8900),
  (0x98dcfb73496fe893be9b5523f7c2e06a4003b, 8900),
  (0xc2d03850a7ca2796323d33dc6ba41242488368f3bc565768907b4003b, 9830), (0x8768829d0b045917b0d07a3003b, 9830),
  (0x77f24768906b5003b, 168), (0x98dcfb734978087129ea92bdd7b0d0671003b, 989),
  (0x8768829d0b19f037689074e003b, 8946), (0x77f24768907d6003b, 247), (0x8768829d0b1d896768906a40065, 247),
  (0x8fdf0ac6dbcf61fddf1970e406b5003b, 247),
  (0xdbed0f930d941fd81e507674e80533959beba41257f2d39d0b12bdd720507a3003b, 8903),
  (0x8fdf0ac6dbcf61fe523f7c2e07f8003b, 8903), (0x7f716bf24a6fc30809003b, 1106),
  (0x8fdf0b07daaa2b2b523f80b2074e003b, 8990), (0x8fdf0b07daaa2b2b8bd27d4f0770003b, 8973),
  (0x8fdf0b48d9a8a37418ac6d810792003b, 36), (0x7f716c523f7e7006c6003b, 120149), (0x77f247d4f07b4003b, 729),
  (0x87688317637b23472050781003b, 8784)]

/-- part of `html5Table` -/
def html5Table8 : List (Nat × Nat) := [
  (0xa26acbbd3dc2e30080328502b87f247d4f07b4003b, 8785), (0xa26acbbd3dc2e3012d8502d0b13f0e841507a3003b, 8760),
  (0x98dcfbfd674e02d42bc7818ac841507a3003b, 8724), (0xac917879119f1131ca7b2232e561bbc459180b206b5003b, 8865),
  (0xe9abe15f5f62fbbf8f6db456957bf3c1d86c2dd1f3d463442c27b7ac7f24744706b5003b, 8966),
  (0xac91787911a3a72e5c923e3894248fa8bd27d4f07e7003b, 8595),
  (0xe9abe15f5f671f89a4723da3de0ea2bde1a1425b621c1d66d8a348fa523f865707a3003b, 8650),
  (0xf8469f75555d91823eb96948fd61f886e6ef9b0d11349bbb1745e2f57a3739255732607b4003b, 8643),
  (0x107cb096caab36a9a62a4ffdd8d38180f555e94bde247e576c8ba412553d897d0b0b8b7756807b4003b, 8642),
  (0xa26acc069d79506c3030569ea98bd27d4f07e7003b, 10512), (0x8fdf0b89d8902b2b523f80b2074e003b, 8991),
  (0x8fdf0b89d8902b2b8bd27d4f0770003b, 8972), (0x7f716c9f036fc30792003b, 119993), (0x7f716c9f036fc30809003b, 1109),
  (0x7f716c9f037d4f072c003b, 10742), (0x8fdf0b9f82f6d57c8bd27d4f071b003b, 273),
  (0x8768837d57b7f247d4f07b4003b, 8945), (0x7f716cb23480b206f9003b, 9663), (0x8768837d57c8bd2768906c6003b, 9662),
  (0x87688391bbc459180b20792003b, 8693), (0x87688391bbccbe86d810792003b, 10607),
  (0x98dcfcb58ee4c893d2ff5b8b779ec06b5003b, 10662), (0x7f716d255a6fc30809003b, 1119),
  (0xa26accca47aeea9780872848f9459180b20792003b, 10239), (0x88c324ba94919047d4f07b4003b, 10871),
  (0x80b7aa19047d4f07b4003b, 8785), (0x88c32709ea86bf3841507b40065, 233),
  (0x914f597a892f2b2bc56582f406b5003b, 233), (0x914f597a89438f3bb23472050792003b, 10862),
  (0x914f59a5ddce9ea98bd27d4f074e003b, 283), (0x80b7ac6bf376890792003b, 8790), (0x80b7ac6bf3768907920063, 234),
  (0x88c32732b2adf1980b20693003b, 234), (0x914f59a5dde0763718ac7d4f074e003b, 8789), (0x792556fc30809003b, 1101),
  (0x80b7ac7f247d4f07b4003b, 279), (0x720506b5003b, 8519), (0x88c3276fdeb19047d4f07b4003b, 8786),
  (0x7925573260792003b, 120098), (0x720506d7003b, 10906), (0x88c3278442f8bd26d8107d60065, 232),
  (0x914f59fc872848f94591853606b5003b, 232), (0x79255744707a3003b, 10902),
  (0x914f59fc87298f3a7f247d4f07b4003b, 10904), (0x7205072c003b, 10905),
  (0xa40a95105ee2bc98182f61d57b925580b207a3003b, 9191), (0x7925579ec072c003b, 8467), (0x7925579ec07a3003b, 10901),
  (0x914f5a68dabe8f3a7f247d4f07b4003b, 10903), (0x88c327fe9b445916fc30792003b, 275),
  (0x88c327fe9b5657082f40809003b, 8709), (0xa40a9528d4323fc4412d4e34c19f03720507b4003b, 8709),
  (0x914f5a7e850bbc78b234889907d6003b, 8709), (0x914f5a7e850f8f3b657037510363003b, 8196),
  (0x914f5a7e850f8f3b657037510374003b, 8197), (0x80b7ad2bdd81d30770003b, 8195), (0x792557c2e06d7003b, 331),
  (0x80b7ad3f0e81d30770003b, 8194), (0x88c32827636b8b77d4f074e003b, 281), (0x80b7ad523f7e7006c6003b, 120150),
  (0x80b7ad65706d810792003b, 8917), (0x914f5abf83eb9ea98bd281d3072c003b, 10723),
  (0x88c3283bc7818ac841507a3003b, 10865), (0x80b7ad657081d306f9003b, 949),
  (0x9a64506b7c42b82e8d0b118ac7d4f074e003b, 949), (0x88c3283bc789f03768907d6003b, 1013),
  (0x914f5ad52e3f2b2adf1980b20693003b, 8790), (0x9a64508281231dde0763718ac7d4f074e003b, 8789),
  (0x88c328502b99f037689073d003b, 8770), (0xb92ff2d1891f2b9c9f6cd73a1d102f61d57bb8b782f40792003b, 10902),
  (0xc4c2f1fea1b11e566963a4adbee13257f2d3da373925581d307a3003b, 10901), (0x914f5ad52e561bbc459179ec07a3003b, 61),
  (0x914f5ad52e561bbc925581d307b4003b, 8799), (0x88c328502b9c565768907d6003b, 8801),
  (0x9a645082813b7d78ad0b1d8964cc40484003b, 10872), (0xa40a958aa950a5a03083eb9ea98bd281d3072c003b, 10725),
  (0x88c328648f719047d4f07b4003b, 8787), (0x88c328648f9459180b20792003b, 10609), (0x80b7ad9f036fc30792003b, 8495),
  (0x88c32878f3a7f247d4f07b4003b, 8784), (0x80b7ad9f037689073d003b, 8770), (0x7925582f40671003b, 951),
  (0x720507b40068, 240), (0x7925582f406e8003b, 240), (0x792558415073d006c, 235), (0x80b7adc5657b0d072c003b, 235),
  (0x80b7adc56580b2075f003b, 8364), (0x80b7adfef86fc3072c003b, 33), (0x88c328dee7fdf1981d307b4003b, 8707),
  (0xc4c2f2cbfccf2cf980a04343f819700298944d57bdf197d4f074e003b, 8496),
  (0xd10f21f8bc9c1fca2cc63b4389e5b303d7257f2d39d0b0459179ec06b5003b, 8519),
  (0xe05313b304fec03f74fe2d46562e824169d80560b48d9b2d57c9f0372050781003b, 8786), (0x7a5866fc30809003b, 1092),
  (0x92bfa932327fe9b4459179ec06b5003b, 9792), (0x92bfa947dccbd0b118ac768906d7003b, 64259),
  (0x8a1dcc7fdee18ac768906d7003b, 64256), (0x92bfa947dccfa37418ac768906d7003b, 64260),
  (0x7a58673260792003b, 120099), (0x8a1dccbd0b118ac768906d7003b, 64257),
  (0x8a1dccd16f218ac768906d7003b, 113639530), (0x81fdee18ac6d8107b4003b, 9837),
  (0x8a1dccfa37418ac768906d7003b, 64258), (0x8a1dccfa374b2347c2e07a3003b, 9649), (0x81fdee3f0e7d4f06c6003b, 402),
  (0x81fdee523f7e7006c6003b, 120151), (0x92bfaa0ad9b048f9459179ec072c003b, 8704), (0x81fdee523f80b2071b003b, 8916),
  (0x8a1dcd376378bd278cb07d6003b, 10969), (0xa5aa5f0eb4ecfe1d66d8a5d57bdf197c2e07b4003b, 10765),
  (0x8a1dcd748f945916fc303410032, 189), (0x92bfaa4bd88d9ea86bf337510352003b, 189),
  (0x92bfaa4bd88d9ea86bf337510363003b, 8531), (0x8a1dcd748f945916fc303410034, 188),
  (0x92bfaa4bd88d9ea86bf337510374003b, 188), (0x92bfaa4bd88d9ea86bf337510385003b, 8533),
  (0x92bfaa4bd88d9ea86bf337510396003b, 8537), (0x92bfaa4bd88d9ea86bf3375103b8003b, 8539),
  (0x92bfaa4bd88d9ea86bf338720363003b, 8532), (0x92bfaa4bd88d9ea86bf338720385003b, 8534),
  (0x8a1dcd748f945916fc303630034, 190)]

/-- part of `html5Table` -/
def html5Table9 : List (Nat × Nat) := [
  (0x92bfaa4bd88d9ea86bf339930374003b, 190), (0x92bfaa4bd88d9ea86bf339930385003b, 8535),
  (0x92bfaa4bd88d9ea86bf3399303b8003b, 8540), (0x92bfaa4bd88d9ea86bf33ab40385003b, 8536),
  (0x92bfaa4bd88d9ea86bf33bd50396003b, 8538), (0x92bfaa4bd88d9ea86bf33bd503b8003b, 8541),
  (0x92bfaa4bd88d9ea86bf33e1703b8003b, 8542), (0x8a1dcd748f9459181d3072c003b, 8260),
  (0x8a1dcd748fa523f8657074e003b, 8994), (0x81fdee9f036fc30792003b, 119995), (0x74470495003b, 8807),
  (0x7b8b74de5072c003b, 10892), (0x942ff83c892f2b2bc56582f406b5003b, 501), (0x8b787129ea92bdd7b0d0671003b, 947),
  (0x942ff83c893be9b52bdd6d8106a4003b, 989), (0x7b8b76d810770003b, 10886),
  (0x942ff852339348f99255853606b5003b, 287), (0x8b787152b2adf1980b20693003b, 285), (0x7b8b76fc30809003b, 1075),
  (0x83442e7f247d4f07b4003b, 289), (0x744706b5003b, 8805), (0x7b8b77205072c003b, 8923),
  (0x7b8b772050781003b, 8805), (0x83442e92557f910781003b, 8807),
  (0xa74a279e2c0828138c82eca37345917c2e07b4003b, 10878), (0x7b8b7720507a3003b, 10878),
  (0x8b78717b7ad9f036fc30693003b, 10921), (0x942ff89332878f3a7f247d4f07b4003b, 10880),
  (0x9d72f81c65b0082e2716c523f82f4075f003b, 10882), (0xa74a279e2c0b08b10988317637b2347d4f072c003b, 10884),
  (0x83442e925581d3072c003b, 9941286400), (0x942ff89332878f3b18ac720507a3003b, 10900),
  (0x7b8b773260792003b, 120100), (0x744706d7003b, 8811), (0x7b8b7744706d7003b, 8921),
  (0x8b7871cd0b12bdd7205072c003b, 8503), (0x83442ef24a6fc30809003b, 1107), (0x7447072c003b, 8823),
  (0x7b8b779ec0495003b, 10898), (0x7b8b779ec0671003b, 10917), (0x7b8b779ec070a003b, 10916),
  (0x7b8b77c2e0495003b, 8809), (0x83442f3f0e6d810770003b, 10890),
  (0xa74a287a4b621c1d3b83febc788bd27d4f07f8003b, 10890), (0x7b8b77c2e06b5003b, 10888),
  (0x83442f3f0e72050781003b, 10888), (0x8b787232ff592557f910781003b, 8809), (0x8b787232ff69f037689073d003b, 8935),
  (0x83442f523f7e7006c6003b, 120152), (0x8b7872848f94591853606b5003b, 96), (0x83442f9f036fc30792003b, 8458),
  (0x83442f9f037689073d003b, 8819), (0x8b787298f3adf197b0d06b5003b, 10894), (0x8b787298f3adf197b0d072c003b, 10896),
  (0x6d70074, 62), (0x744707b4003b, 62), (0x83442fb2346fc30693003b, 10919), (0x8b7872ad57b6bf376890792003b, 10874),
  (0x8b7872ad57b7f247d4f07b4003b, 8919), (0x942ff9d82d3da371ff506d810792003b, 10645),
  (0x9d72f975b01842e561bbc925581d307b4003b, 10876), (0xb1becb9ddbccead77e01d3b83febc788bd27d4f07f8003b, 10886),
  (0x942ff9d82d4548f9459180b20792003b, 10616), (0x942ff9d82d4548f97f247d4f07b4003b, 8919),
  (0xb1becb9ddbccead7da15ad52e4aa373925581d307a3003b, 8923),
  (0xbcdab857b989b98557b7082813612e4aa373925581d307a3003b, 10892), (0x9d72f975b0199d89ba373925581d307a3003b, 8823),
  (0x942ff9d82d4548fa9f037689073d003b, 8819), (0xb1becbd1d4ec9bb099863032d402ff592557f910781003b, 9814277632),
  (0x83442fd8967c2e0495003b, 9814277632), (0x848a6cdf7180b20792003b, 8660),
  (0x95a0479d8936d0b18bd281d30770003b, 8202), (0x848a6f459179ec06c6003b, 189),
  (0x95a0479d893be9b4df1979ec07b4003b, 8459), (0x95a0479d894248f97f246fc30809003b, 1098),
  (0x848a6f459180b20792003b, 8596), (0x9efa4c1761d66d8a348f96bf376890792003b, 10568),
  (0x8cd31639ea98bd280b207e7003b, 8621), (0x848a6f58c26d810792003b, 8463), (0x8cd31662b2adf1980b20693003b, 293),
  (0x95a047f432709ea98bd282f407a3003b, 9829), (0xb378904e57c0354f3d463032d468f3bc565768907b4003b, 9829),
  (0x95a047f4327ea37418ac76890770003b, 8230), (0x95a047f4328648f96bf37d4f074e003b, 8889),
  (0x7cbe873260792003b, 120101), (0xa8e9f1cd6cabaeb11f32709ea98bd27d4f07e7003b, 10533),
  (0xa8e9f1cd6cabaeb2a52c229ea98bd27d4f07e7003b, 10534), (0x8cd31757636459180b20792003b, 8703),
  (0x95a048ccd9a9e9b5b234756807b4003b, 8763),
  (0xe4b91aab966fffec0a617a08cdd77c07d9f51ea0029894248fa8bd27d4f07e7003b, 8617),
  (0xf304ac564fd6ffeacb079ca9aabd771d89a0e78bdccc0029894248fa8bd27d4f07e7003b, 8618),
  (0x848a70523f7e7006c6003b, 120153), (0x95a048ccd9b048f958c26d810792003b, 8213),
  (0x848a709f036fc30792003b, 119997), (0x95a0492382eca373459181d306e8003b, 8463),
  (0x95a0492382f6d57c8bd27d4f071b003b, 295), (0x95a049a580c5e4eac56579ec072c003b, 8259),
  (0x95a049a580d7bc77cbe87205074e003b, 8208), (0x8e2dbb49ea86bf3841507b40065, 237),
  (0x971096fe892f2b2bc56582f406b5003b, 237), (0x76890693003b, 8291), (0x85d0b06bf3768907920063, 238),
  (0x8e2dbb72b2adf1980b20693003b, 238), (0x7df196fc30809003b, 1080), (0x85d0b092556fc30809003b, 1077),
  (0x85d0b0925587780693006c, 161), (0x8e2dbb9b7adfef86fc3072c003b, 161), (0x7df19732606c6003b, 8660),
  (0x7df1973260792003b, 120102), (0x8e2dbbc442f8bd26d8107d60065, 236), (0x97109780872848f94591853606b5003b, 236),
  (0x768906f9003b, 8520), (0x971097abdbbed0b0df197c2e07b4003b, 10764), (0x8e2dbbed0b0df197c2e07b4003b, 8749),
  (0x971097abdbc52ff5a5867689074e003b, 10716), (0x8e2dbbed0b1523f82f40671003b, 8489),
  (0x8e2dbc016f218ac768906d7003b, 307), (0x8e2dbc3e9b445916fc30792003b, 299),
  (0x8e2dbc3e9b44591744706b5003b, 8465), (0xaa89bb9ad81cab1c788720a373df197c2e06b5003b, 8464)]

/-- part of `html5Table` -/
def html5Table10 : List (Nat × Nat) := [
  (0xaa89bb9ad81cab1c788725bc77459180b207b4003b, 8465), (0x8e2dbc3e9b4459182f406e8003b, 305),
  (0x85d0b12bdd7d4f06c6003b, 8887), (0x8e2dbc3e9b56570720506a4003b, 437), (0x7689074e003b, 8712),
  (0x971098182f4c2b2a459180b206b5003b, 8453), (0x8e2dbc52ff5a5867689074e003b, 8734),
  (0xaa89bbb34d694da988dbc52ff6b234768906b5003b, 10717), (0x971098182f5b76367f247d4f07b4003b, 305),
  (0x7df197c2e07b4003b, 8747), (0x971098182f61d57b6bf36d81072c003b, 8890),
  (0xaa89bbb34d7d7200803278442e925580b207a3003b, 8484), (0xaa89bbb34d7d720080328648f96bf36d81072c003b, 8890),
  (0xaa89bbb34d7d720117daa79ea98bd27568071b003b, 10775), (0xa081a199b257f2d42bc788bd27d4f06a4003b, 10812),
  (0x85d0b1523f6fc30809003b, 1105), (0x8e2dbc67636b8b77d4f074e003b, 303), (0x85d0b1523f7e7006c6003b, 120154),
  (0x85d0b1523f82f40671003b, 953), (0x8e2dbc7bc788bd27d4f06a4003b, 10812), (0x8e2dbc902b9c565720507a30074, 191),
  (0x971098592e561bbc925581d307b4003b, 191), (0x85d0b19f036fc30792003b, 119998), (0x85d0b19f037689074e003b, 8712),
  (0x8e2dbcb8f3adf197c2e0495003b, 8953), (0xa081a20ccb175dbc52ff57f247d4f07b4003b, 8949),
  (0x8e2dbcb8f3adf197c2e07a3003b, 8948), (0x9710988482e8d0b13f0e81d307d6003b, 8947),
  (0x8e2dbcb8f3adf197c2e07d6003b, 8712), (0x768907b4003b, 8290), (0x9710989a2d39d0b118ac70e406b5003b, 297),
  (0x8e2dbce1bbd057b6fc30809003b, 1110), (0x7df198415073d006c, 239), (0x85d0b1c5657b0d072c003b, 239),
  (0x8f886082b2adf1980b20693003b, 309), (0x7f24a6fc30809003b, 1081), (0x7f24a73260792003b, 120103),
  (0x8f88614e9b4459182f406e8003b, 567), (0x8716f2523f7e7006c6003b, 120155), (0x8716f29f036fc30792003b, 119999),
  (0x9880e7e582e3b7ad8bd26fc30809003b, 1112), (0x8f8861f1bbd057b6fc30809003b, 1108),
  (0x90e30569ea965707e700671003b, 954), (0x99f135c0893fbc7865706d8107d6003b, 1008),
  (0x99f135ebddd3b7ac7f247689072c003b, 311), (0x8057b6fc30809003b, 1082), (0x8057b73260792003b, 120104),
  (0x99f13642872848f992557205074e003b, 312), (0x885d32cbe86fc30809003b, 1093), (0x885d32f24a6fc30809003b, 1116),
  (0x885d33523f7e7006c6003b, 120156), (0x885d339f036fc30792003b, 120000), (0x923da7ed688459180b20792003b, 8666),
  (0x89a370df7180b20792003b, 8656), (0x9b61826c3f24d57b45917689072c003b, 10523),
  (0x923da801cc9459180b20792003b, 10510), (0x79ec0495003b, 8806), (0x818ac4de506d7003b, 10891),
  (0x89a37165c86d810792003b, 10594), (0x9b618521892f2b2bc56582f406b5003b, 314),
  (0xaf69174adbe1205a7e850bbc78b234889907d6003b, 10676), (0x9b6185218934442f8bd26d81074e003b, 8466),
  (0x9b618521893be9b458c270e40671003b, 955), (0x89a37345917c2e06d7003b, 10216),
  (0x923daa79ea93f0e744706a4003b, 10641), (0x9b618521893d2ff5b8b779ec06b5003b, 10216),
  (0x818ac6d810770003b, 10885), (0x89a37345917f9107c5006f, 171), (0x923daa79ea978a18415075f003b, 171),
  (0x89a373459180b20792003b, 8592), (0x923daa79ea98bd280b20682003b, 8676),
  (0xa5179d73a1d66d8a348f958c2732607a3003b, 10527), (0x9b618521894248fa8bd2732607a3003b, 10525),
  (0x9b618521894248fa8bd27568071b003b, 8617), (0x9b618521894248fa8bd279ec0770003b, 8619),
  (0x9b618521894248fa8bd27e70072c003b, 10553), (0xa5179d73a1d66d8a348fa9f037689073d003b, 10611),
  (0x9b618521894248fa8bd282f4072c003b, 8610), (0x818ac6d8107b4003b, 10923),
  (0x9b6185218944d57b45917689072c003b, 10521), (0x89a373459182f406b5003b, 10925),
  (0x923daa79ea9b234720507a3003b, 12171738624), (0x923daa8e4e9459180b20792003b, 10508),
  (0x923daa8e4e958c280b2071b003b, 10098), (0x9b618537339348f945916fc306b5003b, 123),
  (0x9b618537339348f945916fc3071b003b, 91), (0x923daa8e4ea8bd278cb06b5003b, 10635),
  (0xa5179d8aa6cc7d89a5d339f0379ec06a4003b, 10639), (0xa5179d8aa6cc7d89a5d339f0379ec07c5003b, 10637),
  (0x9b61854cddce9ea98bd27d4f074e003b, 318), (0x9b61854cddd3b7ac7f247689072c003b, 316),
  (0x923daaa2b2a92557689072c003b, 8968), (0x89a3736bf384150682003b, 123), (0x818ac6fc30809003b, 1083),
  (0x89a3737f246fc30671003b, 10550), (0x923daab716c78a18415075f003b, 8220),
  (0x9b618562883402b9c5657d4f0792003b, 8222), (0xa5179db8b0b89d891716bcbe86d810792003b, 10599),
  (0xaf6917943bc4276318d7978f3acbe86d810792003b, 10571), (0x89a3737f2481d306e8003b, 8626), (0x79ec06b5003b, 8804),
  (0xba5fa9277c07d9f51ea0029894248fa8bd27d4f07e7003b, 8592),
  (0xed8523b23af87d8c7c3c89eef5642c395ab8c0475212c3ad57b45917689072c003b, 8610),
  (0x10c234d4c349285bb98406559ce6a5886e6ef9b0d11349bbb1745e2f4d716c523f8657074e003b, 8637),
  (0xed8523b23af87d8c7c3c96035f26657311a8d74c3d4d9ac76373f0e84150770003b, 8636),
  (0xfc5d75ed5ea80565440066b91fedf3c85794708a02c21d66d8a348fa523f865707a3003b, 8647),
  (0xfc5d75ed5ea80565440071b96ff6771d89a0e78bdccc0029894248fa8bd27d4f07e7003b, 8596),
  (0x10c234d4c349285bb984078d506f5de8f623af6049a98c02c21d66d8a348fa523f865707a3003b, 8646),
  (0x12eb3da43075968f8c6e0c8687cdb903fdde48fbb328671a7ba4d8d7f3d462ac83fd7637523f7c2e07a3003b, 8651),
  (0x155b90965ab4bef80d883c23df4f3ddd8197f06425409c7910d36d07f06b2f8f0f0f88f83c894248fa8bd27d4f07e7003b, 8621),
  (0xfc5d75ed5ea8056544007564350e360e02b957b6f6e45b162d39d0b12bdd720507a3003b, 8907), (0x818ac720506d7003b, 8922),
  (0x818ac72050781003b, 8804), (0x89a37392557f910781003b, 8806),
  (0xaf6917acb10828138c82eca37345917c2e07b4003b, 10877), (0x818ac720507a3003b, 10877),
  (0x923daacb7ad9f036fc30693003b, 10920), (0x9b61857832878f3a7f247d4f07b4003b, 10879),
  (0xa5179dcfb5b0082e2716c523f82f4075f003b, 10881), (0xaf6917acb10b08b10988317637b2347d4f0792003b, 10883)]

/-- part of `html5Table` -/
def html5Table11 : List (Nat × Nat) := [
  (0x89a373925581d306d7003b, 9940172288), (0x9b61857832878f3ab8b7720507a3003b, 10899),
  (0xc605a3b9f3dd74d14aa1bd511d3b83febc788bd27d4f07f8003b, 10885), (0xa5179dcfb5b0082f58f3a7f247d4f07b4003b, 8918),
  (0xba5fa9277c1bb93d736b11f328502b8b8b782f40792003b, 8922),
  (0xc605a3b9f3dd74d14aa1c3125ad52e5102b8b8b782f40792003b, 10891), (0xa5179dcfb5b0082f58f3ab8b782f40792003b, 8822),
  (0xa5179dcfb5b0082f58f3b9f037689073d003b, 8818), (0x9b61858ddccbd0b19f03756807b4003b, 10620),
  (0x9b61858ddccfa374523f7d4f0792003b, 8970), (0x818ac73260792003b, 120105), (0x79ec06d7003b, 8822),
  (0x818ac74470495003b, 10897), (0x923dab08a6f459180b206a4003b, 8637), (0x923dab08a6f459180b207c5003b, 8636),
  (0x9b6185b931639ea98bd28415072c003b, 10602), (0x923dab08a6f58c279ec071b003b, 9604),
  (0x89a373f24a6fc30809003b, 1113), (0x79ec072c003b, 8810), (0x923dab5a373459180b20792003b, 8647),
  (0xaf691857e5da1abbe7d9b048fa3f0e72050792003b, 8990), (0x9b61860fdab08a6f459180b206a4003b, 10603),
  (0x923dab5a374b23480b206f9003b, 9722), (0x9b6186258502d0b07f247d4f07b4003b, 320),
  (0x9b618625850a7637c56581d307b4003b, 9136), (0xc605a496d6f21a3309886218b2642d2f9ea86bf3756806b5003b, 9136),
  (0x818ac7c2e0495003b, 8808), (0x89a3743f0e6d810770003b, 10889),
  (0xaf691888d0621c1d3b83febc788bd27d4f07f8003b, 10889), (0x818ac7c2e06b5003b, 10887),
  (0x89a3743f0e72050781003b, 10887), (0x923dab82ff592557f910781003b, 8808), (0x923dab82ff69f037689073d003b, 8934),
  (0x923dab9763645917c2e06d7003b, 10220), (0x923dab97636459180b20792003b, 8701),
  (0x923dab9763658c280b2071b003b, 10214),
  (0xed8524fd69b9c172d1c0588d65977c07d9f51ea0029894248fa8bd27d4f07e7003b, 10229),
  (0x1419f19a7aa8a0aca7a9655c433fa0e9f0565440071b96ff6771d89a0e78bdccc0029894248fa8bd27d4f07e7003b, 10231),
  (0xc605a4ce0fb7438a169d8d48d482893fbc789f0382f4075f003b, 10236),
  (0xfc5d774d40555d89fedc69168bf9771d89a0e78bdccc0029894248fa8bd27d4f07e7003b, 10230),
  (0xed8524fd69bbb42c9d1037138d242c395ab8c0475212c30a3739255732607b4003b, 8619),
  (0xfc5d774d40576f6f66e13a84c5f66efcf0644c4bc733efbcd897d0b0b8b7756807b4003b, 8620),
  (0x923dab9763765706d810792003b, 10629), (0x89a374523f7e7006c6003b, 120157),
  (0x9b618650d9adbc7818ac841507a3003b, 10797), (0xa5179eb5e74e02d39d0b12bdd720507a3003b, 10804),
  (0x9b618650d9b6a83e459181d307b4003b, 8727), (0x9b618650d9b6a83e58c26d810792003b, 95),
  (0x818ac7d4f081a003b, 9674), (0xa5179eb5e75622b1ab7ad3f0e744706b5003b, 9674), (0x89a374523f89ba06c6003b, 10731),
  (0x89a37465706d810792003b, 40), (0x9b61866683eb9ea98bd279ec07b4003b, 10643),
  (0x923dabd48f9459180b20792003b, 8646), (0xaf6918eaa57ac0bbe7d9b048fa3f0e72050792003b, 8991),
  (0x923dabd48f9cbe86d810792003b, 8651), (0x9b618691d8968a6f459180b206a4003b, 10605), (0x818ac80b2073d003b, 8206),
  (0x923dabd48fab23480b206f9003b, 8895), (0x9b6186a782de9ea978a18415075f003b, 8249),
  (0x89a3749f036fc30792003b, 120001), (0x818ac81d306e8003b, 8624), (0x89a3749f037689073d003b, 8818),
  (0x923dabe8f3adf197b0d06b5003b, 10893), (0x923dabe8f3adf197b0d06d7003b, 10895), (0x89a3749f037f910682003b, 91),
  (0x923dabe8f3b78a18415075f003b, 8216), (0x9b6186a782f302b9c5657d4f0792003b, 8218),
  (0x9b6186a782f6d57c8bd27d4f071b003b, 322), (0x72c0074, 60), (0x79ec07b4003b, 60),
  (0x89a374b2346fc30693003b, 10918), (0x923dabfd57b6bf376890792003b, 10873), (0x923dabfd57b7f247d4f07b4003b, 8918),
  (0x9b6186bd2d388a708bd2720506b5003b, 8907), (0x9b6186bd2d39d0b12bdd720507a3003b, 8905),
  (0x9b6186bd2d3da373459180b20792003b, 10614), (0xa5179f29001842e561bbc925581d307b4003b, 10875),
  (0x9b6186bd2d4548f7ff506d810792003b, 10646), (0x89a374b23480b206f9003b, 9667),
  (0x923dabfd57c8bd2768906b5003b, 8884), (0x923dabfd57c8bd2768906c6003b, 9666),
  (0xaf6919340560a861a888368f3acbe86d810792003b, 10570), (0xa5179f40050fad8a71bbccbe86d810792003b, 10598),
  (0xba5faae1423c9bb099863032d402ff592557f910781003b, 9813163520), (0x89a374d8967c2e0495003b, 9813163520),
  (0x93984d3a94919047d4f07b4003b, 8762), (0x82bdd6d8106930072, 175), (0x8ae9b445916fc30792003b, 175),
  (0x8ae9b4459179ec06b5003b, 9794), (0x8ae9b4459179ec07b4003b, 10016),
  (0xa69ef1cab1ce4dabfd57b925581d306b5003b, 10016), (0x82bdd6d810770003b, 8614),
  (0x9cd1d482893fbc789f0382f4075f003b, 8614), (0xc7db05e52fec0330751ed8a70158d99e716c523f8657074e003b, 8615),
  (0xc7db05e52fec0330751ed8a70158d9a8a3739255732607b4003b, 8612),
  (0xb108e0e75cf0f3c42b82f6d57c523f84150770003b, 8613), (0x9cd1d482894248fa057b72050792003b, 9646),
  (0x9cd1d4addde076372bdd7b0d0671003b, 10793), (0x82bdd6fc30809003b, 1084), (0x93984fc716b459181d306e8003b, 8212),
  (0xefb82646afc1ad008e7c1b879791e1657b6f5740a19893d2ff5b8b779ec06b5003b, 8737), (0x82bdd73260792003b, 120106),
  (0x82bdd7568075f003b, 8487), (0x8ae9b4df196fc30792006f, 181), (0x9398502d0b06bf380b2075f003b, 181),
  (0x82bdd768906a4003b, 8739), (0x9cd1d52fdbb8716b459181d307b4003b, 42),
  (0x9cd1d52fdbb8716b6bf376890792003b, 10992), (0x9398502d0b07f2470e4075f0074, 183),
  (0x9cd1d52fdbb8716b7f247d4f07b4003b, 183), (0x9398502d0b13f0e841507a3003b, 8722),
  (0x9cd1d52fdbc52ff6c56581d30682003b, 8863), (0x9cd1d52fdbc52ff6c56581d306a4003b, 8760),
  (0xa69ef282d98182f631bbd9f0370e407c5003b, 10794), (0x8ae9b518ac6fc30770003b, 10971),
  (0x8ae9b518ac70e40792003b, 8230), (0x9cd1d59c2f5cbc7818ac841507a3003b, 8723),
  (0x9cd1d5b1d99e716b925579ec07a3003b, 8871), (0x8ae9b5523f7e7006c6003b, 120158)]

/-- part of `html5Table` -/
def html5Table12 : List (Nat × Nat) := [
  (0x7b0d0770003b, 8723), (0x8ae9b59f036fc30792003b, 120002), (0x9cd1d60882f6d57c65707d4f07a3003b, 8766),
  (0x7b0d07c5003b, 956), (0xb108e2d086580686bd2d39d0b12bdd6d810770003b, 8888),
  (0x93985121bbd2bdd6d810770003b, 8888), (0x83f0e502706d7003b, 9938993976), (0x83f0e502707b4003b, 9816449234),
  (0x8c2ff3529782f407d6003b, 9816441656), (0xc9b0663b0953e5a07d9f51ea0029894248fa8bd27d4f07e7003b, 8653),
  (0x1111a7578b50c180328945440071b96ff6771d89a0e78bdccc0029894248fa8bd27d4f07e7003b, 8654),
  (0x83f0e55cc072c003b, 9937879864), (0x83f0e55cc07b4003b, 9815335122), (0x8c2ff3b28c82f407d6003b, 9815327544),
  (0xd64b6d4ebee9ac2fd89a0e78bdccc0029894248fa8bd27d4f07e7003b, 8655), (0x9e4222f5378ca94b459181d306e8003b, 8879),
  (0x9e4222f537b5716b459181d306e8003b, 8878), (0x94f2f499ea858c279ec0671003b, 8711),
  (0x9e4223e3892f2b2bc56582f406b5003b, 324), (0x8c2ff545917c2e06d7003b, 9732890834), (0x83f0e6d810770003b, 8777),
  (0x8c2ff545917e700495003b, 12103713592), (0x94f2f499ea96570768906a4003b, 9780790072),
  (0x94f2f499ea965707d4f07a3003b, 329), (0xa8264621c1d3b83febc788bd27d4f07f8003b, 8777),
  (0x94f2f499ea9b23484150792003b, 9838), (0xa8264621c1d922d491bbd8bd26d81072c003b, 9838),
  (0xb2a8aa83ddf6b501dad79648f9459179ec07a3003b, 8469), (0x83f0e6ea207a30070, 160),
  (0x8c2ff558c281d30770003b, 160), (0x94f2f4ae4eac5657b0d0770003b, 9784132408),
  (0x9e4223f933971bbd2bdd7e7006b5003b, 9785246520), (0x8c2ff56bf36d810770003b, 10819),
  (0x9e42240eddce9ea98bd27d4f074e003b, 328), (0x9e42240eddd3b7ac7f247689072c003b, 326),
  (0x94f2f4c2b2b523f7c2e06d7003b, 8775), (0xb2a8aab4c87a65745e2f51442e7f247d4f07b4003b, 12100371256),
  (0x8c2ff56bf384150770003b, 10818), (0x83f0e6fc30809003b, 1085), (0x94f2f4d716b459181d306e8003b, 8211),
  (0x7c2e06b5003b, 8800), (0x94f2f4eb7a9df7180b20792003b, 8663), (0x9e42243a32709ea98bd27568071b003b, 10532),
  (0x94f2f4eb7ac459180b20792003b, 8599), (0xa826467dd597a894248fa8bd27d4f07e7003b, 8599),
  (0x94f2f4eb7ac7f247d4f07b4003b, 9786360632), (0x9e42243a328502b9c565768907d6003b, 8802),
  (0x9e42243a32878f3a92556d810792003b, 10536), (0x94f2f4eb7ad9f037689073d003b, 9770763064),
  (0x9e42243a328dee7fdf1981d307b4003b, 8708), (0xa826467dd5b6cd67dd0b19f0382f407a3003b, 8708),
  (0x83f0e73260792003b, 120107), (0x83f0e74470495003b, 9811985208), (0x83f0e744706b5003b, 8817),
  (0x8c2ff5b8b772050781003b, 8817), (0x94f2f51442e92557f910781003b, 9811985208),
  (0xbdd335c80759e2c0828138c82eca37345917c2e07b4003b, 12119311160), (0x8c2ff5b8b7720507a3003b, 12119311160),
  (0x94f2f51442f9f037689073d003b, 8821), (0x83f0e744707b4003b, 8815), (0x8c2ff5b8b782f40792003b, 8815),
  (0x94f2f528a6cdf7180b20792003b, 8654), (0x94f2f528a6f459180b20792003b, 8622),
  (0x94f2f528a7065706d810792003b, 10994), (0x7c2e06f9003b, 8715), (0x83f0e768907a3003b, 8956),
  (0x8c2ff5df1981d306a4003b, 8954), (0x83f0e768907d6003b, 8715), (0x8c2ff5f24a6fc30809003b, 1114),
  (0x94f2f57a370df7180b20792003b, 8653), (0x83f0e79ec0495003b, 9810871096), (0x94f2f57a373459180b20792003b, 8602),
  (0x8c2ff618ac70e40792003b, 8229), (0x83f0e79ec06b5003b, 8816),
  (0xc9b069ae95c077c07d9f51ea0029894248fa8bd27d4f07e7003b, 8602),
  (0x1111a7a251a87904360565440071b96ff6771d89a0e78bdccc0029894248fa8bd27d4f07e7003b, 8622),
  (0x8c2ff618ac72050781003b, 8816), (0x94f2f57a37392557f910781003b, 9810871096),
  (0xbdd33649f65acb10828138c82eca37345917c2e07b4003b, 12118197048), (0x8c2ff618ac720507a3003b, 12118197048),
  (0x94f2f57a373925581d307a3003b, 8814), (0x94f2f57a3749f037689073d003b, 8820), (0x83f0e79ec07b4003b, 8814),
  (0x94f2f57a374b23480b206f9003b, 8938), (0x9e4224d1dabfd57c8bd2768906b5003b, 8940),
  (0x8c2ff62bdd768906a4003b, 8740), (0x8c2ff6523f7e7006c6003b, 120159), (0x7c2e075f0074, 172),
  (0x83f0e7d4f07b4003b, 172), (0x94f2f5b7637b2347689074e003b, 8713),
  (0x9e422512d9b2d57bdf197c2e0495003b, 9974645560), (0xb2a8abda47c2e300d6dbc52ff57f247d4f07b4003b, 9970189112),
  (0xa8264764074e02d39d0b13f0e85360671003b, 8713), (0xa8264764074e02d39d0b13f0e85360682003b, 8951),
  (0xa8264764074e02d39d0b13f0e85360693003b, 8950), (0x94f2f5b7637b2347c2e06f9003b, 8716),
  (0xa8264764074e02d402ff5df1985360671003b, 8716), (0xa8264764074e02d402ff5df1985360682003b, 8958),
  (0xa8264764074e02d402ff5df1985360693003b, 8957), (0x8c2ff665706d810792003b, 8742),
  (0xbdd336b1e8bbcdff3d46167893aa37418ac7205072c003b, 8742), (0x9e42252883eb9ea98bd281d3072c003b, 12260810981),
  (0x94f2f5cbc77459180b207b4003b, 9699459896), (0xa826477b0c3d4d9a8a373df197c2e07b4003b, 10772),
  (0x83f0e7e700792003b, 8832), (0x9e422528840148f96bf3841506b5003b, 8928), (0x8c2ff6657080b206b5003b, 12173902648),
  (0x94f2f5cbc788bd272050693003b, 8832), (0xa826477b0c415d892b7ac6bf372050781003b, 12173902648),
  (0x94f2f5f48f6df7180b20792003b, 8655), (0x94f2f5f48f9459180b20792003b, 8603),
  (0x9e422553d88d9ea98bd280b20693003b, 11750540088), (0x9e422553d88d9ea98bd280b207e7003b, 9586934584),
  (0xd64b70f9841d0771d89a0e78bdccc0029894248fa8bd27d4f07e7003b, 8603), (0x94f2f5f48fab23480b206f9003b, 8939),
  (0x9e422553d8a5d57c8bd2768906b5003b, 8941), (0x83f0e81d30693003b, 8833),
  (0x9e42256982e12b2a6bf3841506b5003b, 8929), (0x8c2ff69f036fc306b5003b, 12175016760),
  (0x8c2ff69f036fc30792003b, 120003)]

/-- part of `html5Table` -/
def html5Table13 : List (Nat × Nat) := [
  (0xbdd336ffde93d97d59a74b4d8a5d57c2bdd768906a4003b, 8740),
  (0x10109dd55792e4727d68eba34cab12f7179f1bcdff3d46167893aa37418ac7205072c003b, 8742),
  (0x8c2ff69f037689073d003b, 8769), (0x94f2f608f3adf197b0d06b5003b, 8772),
  (0x9e42256982e8d0b12bdd72050781003b, 8772), (0x94f2f608f3b2bdd768906a4003b, 8740),
  (0x94f2f608f3b65706d810792003b, 8742), (0xa82647c01b2232e538f3bc5656ea206b5003b, 8930),
  (0xa82647c01b2232e538f3bc5657e7006b5003b, 8931), (0x8c2ff69f0384150682003b, 8836),
  (0x94f2f608f3bc5656ea20495003b, 12198413112), (0x94f2f608f3bc5656ea206b5003b, 8840),
  (0xa82647c01b279d781e4ea9f03720507b4003b, 9842073810), (0xbdd336ffdea7b8c49a36cdd82e3b7adb23472050781003b, 8840),
  (0xc9b06a6fdc923450e3da3ab5b11f3288d57b92557f910781003b, 12198413112), (0x94f2f608f3bc5656fc30693003b, 8833),
  (0xa82647c01b279d7832b2a6bf372050781003b, 12175016760), (0x8c2ff69f0384150770003b, 8837),
  (0x94f2f608f3bc5657e700495003b, 12199527224), (0x94f2f608f3bc5657e7006b5003b, 8841),
  (0xa82647c01b279d793bc789f03720507b4003b, 9843187922), (0xbdd336ffdea7b8c5dc7c42b82e3b7adb23472050781003b, 8841),
  (0xc9b06a6fdc9234523a4406e3b11f3288d57b92557f910781003b, 12199527224), (0x8c2ff6b2347447072c003b, 8825),
  (0x94f2f61d57bdf1979ec06a40065, 241), (0x9e42257f2d39d0b118ac70e406b5003b, 241),
  (0x8c2ff6b23479ec06d7003b, 8824), (0xf1eb2acbeac03d86f5de8507964c39c169d8bd88578327ea3739255732607b4003b, 8938),
  (0x1111a7b50340305755b90342d90ac0d33587dadf6eacb100f685783276fdeeb23472050781003b, 8940),
  (0x10109dd78a96c415f653c6d580fb0fd5d80764960dcfb5aead897d0b0b8b7756807b4003b, 8939),
  (0x1222c2305374335ccb149377069b6ce068e0588d65977c1a31e83629780871b8a70b23472050781003b, 8941),
  (0x7c2e07c5003b, 957), (0x83f0e8415073d003b, 35), (0x9e422594d78fe9b4925580b2075f003b, 8470),
  (0x94f2f631bbd2bdd81d30770003b, 8199), (0x9e4225aa81aca94b459181d306e8003b, 8877),
  (0x9e4225aa81b1c24f459180b20792003b, 10500), (0x8c2ff6d8966d810770003b, 9783025874),
  (0x9e4225aa81d5716b459181d306e8003b, 8876), (0x8c2ff6d896744706b5003b, 9809764562),
  (0x8c2ff6d896744707b4003b, 69083346), (0xa826480529f98dbc52ff5a5867689074e003b, 10718),
  (0x9e4225aa81dfa370df7180b20792003b, 10498), (0x8c2ff6d89679ec06b5003b, 9808650450),
  (0x8c2ff6d89679ec07b4003b, 66855122), (0xa826480529fd9dabfd57c8bd2768906b5003b, 9897779410),
  (0x9e4225aa81e748f6df7180b20792003b, 10499), (0xa82648052a05bd8a5d57c8bd2768906b5003b, 9898893522),
  (0x94f2f6461fe9f037689073d003b, 9764085970), (0x94f2f65a83bdf7180b20792003b, 8662),
  (0x9e4225c02c229ea98bd27568071b003b, 10531), (0x94f2f65a83e459180b20792003b, 8598),
  (0xa826481c2ee4c894248fa8bd27d4f07e7003b, 8598), (0x9e4225c02c332ff592556d810792003b, 10535),
  (0x7d4f0583003b, 9416), (0x964d99a9ea86bf3841507b40065, 243), (0x9fb27344892f2b2bc56582f406b5003b, 243),
  (0x8d7636459181d307b4003b, 8859), (0x8d76366bf376890792003b, 8858), (0x8d76366bf3768907920063, 244),
  (0x964d99d2b2adf1980b20693003b, 244), (0x8523f6fc30809003b, 1086), (0x964d99e716b459181d306e8003b, 8861),
  (0x9fb273858820e4ea18ac6d810693003b, 337), (0x8d76367f24768907d6003b, 10808), (0x8d76367f247d4f07b4003b, 8857),
  (0x9fb2738588368f3b523f79ec06a4003b, 10684), (0x964d99fb7ad18ac768906d7003b, 339),
  (0x964d9a0fded6bf376890792003b, 10687), (0x8523f73260792003b, 120108), (0x8d7636b8b77d4f074e003b, 731),
  (0x964d9a2442f8bd26d8107d60065, 242), (0x9fb273c6872848f94591853606b5003b, 242), (0x8523f744707b4003b, 10689),
  (0x964d9a38a6f58c26d810792003b, 10677), (0x8523f7568073d003b, 937), (0x8d7636df197c2e07b4003b, 8750),
  (0x964d9a8a373459180b20792003b, 8634), (0x964d9a8a3736bf376890792003b, 10686),
  (0xa9ad9b760854cdde448fa523f81d307a3003b, 10683), (0x964d9a8a373df197c2e06b5003b, 8254),
  (0x8523f79ec07b4003b, 10688), (0x964d9a9e9b445916fc30792003b, 333), (0x964d9a9e9b4925574470671003b, 969),
  (0xa9ad9b8d0d52fdbb72b2b8bd27d4f074e003b, 959), (0x8d76372bdd768906a4003b, 10678),
  (0x9fb274488502d0b13f0e841507a3003b, 8854), (0x8d7637523f7e7006c6003b, 120160),
  (0x8d763765706d810792003b, 10679), (0x964d9adbc77925580b20770003b, 10681), (0x964d9adbc7818ac841507a3003b, 8853),
  (0x7d4f0792003b, 8744), (0x964d9b048f9459180b20792003b, 8635), (0x8523f80b206a4003b, 10845),
  (0x964d9b048f97f2472050792003b, 8500), (0xa9ad9c00261a88824b7ad8bd27d4f06c6003b, 8500),
  (0x8523f80b206a40066, 170), (0x8d76378bd270e406c6003b, 170), (0x8523f80b206a4006d, 186),
  (0x8d76378bd270e4073d003b, 186), (0x9fb274b4d897d0b0b8b77d4f06c6003b, 8886), (0x8d76378bd27d4f0792003b, 10838),
  (0xa9ad9c00262ed82eca374523f7e7006b5003b, 10839), (0x8523f80b207d6003b, 10843), (0x8d76379f036fc30792003b, 8500),
  (0x964d9b18f3b18ac6d8107a30068, 248), (0x9fb274ca82eca373459181d306e8003b, 248),
  (0x8d76379f037d4f072c003b, 8856), (0x964d9b2d57bdf1979ec06a40065, 245),
  (0x9fb274e02d39d0b118ac70e406b5003b, 245), (0x9fb274e02d39d0b12bdd720507a3003b, 8855),
  (0xb44875f1130e44980284fdb7ad9f036d8107a3003b, 10806), (0x8523f8415073d006c, 246),
  (0x8d7637c5657b0d072c003b, 246), (0x964d9b561fd58c26d810792003b, 9021), (0x865706d810792003b, 8741),
  (0x865706d8107920061, 182), (0x8ebc77459180b20671003b, 182),
  (0xb5e83dbcdff3d46167893aa37418ac7205072c003b, 8741), (0xa122c2a5894248fa9f037689073d003b, 10995)]

/-- part of `html5Table` -/
def html5Table14 : List (Nat × Nat) := [
  (0x97a83eb9ea98bd281d3072c003b, 11005), (0x8ebc77459180b207b4003b, 8706), (0x865706fc30809003b, 1087),
  (0xa122c2fc328648f96bf37c2e07b4003b, 37), (0xa122c2fc328648f9df197d4f06a4003b, 46),
  (0xa122c2fc328648fa2bdd7689072c003b, 8240), (0x8ebc77925580b20770003b, 8869),
  (0xab34ef2bf5aead8a5d57b92557c2e071b003b, 8241), (0x8657073260792003b, 120109), (0x86570756806f9003b, 966),
  (0x8ebc77cbe8768907d6003b, 981), (0xa122c33d3172e9b52bdd6d8107b4003b, 8499),
  (0x97a83f48a70523f7c2e06b5003b, 9742), (0x7e7006f9003b, 960),
  (0xc146c26892c460d05a2bb503169fdee523f80b2071b003b, 8916), (0x86570768907d6003b, 982),
  (0xa122c393daa79ea93f0e6fc3071b003b, 8463), (0xab34efcd18521893d2ff56bf378cb06e8003b, 8462),
  (0xa122c393daa79ea93f0e78cb07d6003b, 8463), (0x8ebc7818ac841507a3003b, 43),
  (0xb5e83ec9e9f400511082de9ea86bf376890792003b, 10787), (0x97a83f9a374c56581d30682003b, 8862),
  (0xab34efcd186d2d7978f3a6bf376890792003b, 10786), (0xa122c393dac11bbd9f0370e4075f003b, 8724),
  (0xa122c393dac11bbd9f0370e407c5003b, 10789), (0x97a83f9a374c56581d306b5003b, 10866),
  (0x97a83f9a374c56581d3073d006e, 177), (0xa122c393dac11bbd9f037b0d074e003b, 177),
  (0xab34efcd186d2d7978f3b9f037689073d003b, 10790), (0xab34efcd186d2d7978f3bb2348657075f003b, 10791),
  (0x7e70073d003b, 177), (0xb5e83f1349b30f98182f61d57bdf197c2e07b4003b, 10773), (0x8ebc78523f7e7006c6003b, 120161),
  (0x8ebc78523f8415074e0064, 163), (0x97a83fd7637c5657c2e06a4003b, 163), (0x7e700792003b, 8826),
  (0x8657080b20495003b, 10931), (0x8ebc788bd26d810770003b, 10935), (0x97a840148f96bf3841506b5003b, 8828),
  (0x8657080b206b5003b, 10927), (0x8ebc788bd272050693003b, 8826),
  (0xcd5b2f879b56d326343f66411d3b83febc788bd27d4f07f8003b, 10935),
  (0xda30e280150c405897835fb3d830750fad89ba375122972050781003b, 8828), (0xa122c415d892b7ac6bf372050781003b, 10927),
  (0xda30e280150c4058978370847621c1d3b83febc788bd27d4f07f8003b, 10937),
  (0xb5e83f5ca97da159a5dddf2ff592557f910781003b, 10933), (0xb5e83f5ca97da159a5dddf2ff69f037689073d003b, 8936),
  (0xab34f057361be32732b2b9f037689073d003b, 8830), (0x97a840148f9df197b0d06b5003b, 8242),
  (0xa122c415d897d0b12bdd720507a3003b, 8473), (0x8ebc788bd27c2e0495003b, 10933),
  (0x97a840148fa3f0e6d810770003b, 10937), (0xa122c415d89e2ff69f037689073d003b, 8936),
  (0x8ebc788bd27d4f06a4003b, 8719), (0xb5e83f5ca98c0473b0dcc19ea918ac6d810792003b, 9006),
  (0xb5e83f5ca98c0473b0dccfa373df197c2e06b5003b, 8978), (0xb5e83f5ca98c0473b0dcd88f3bc56580b206c6003b, 8979),
  (0x8ebc788bd27d4f0770003b, 8733), (0xa122c415d89f7637657082f4075f003b, 8733),
  (0x97a840148fa9f037689073d003b, 8830), (0xa122c415d8a71bbd8bd27205072c003b, 8880),
  (0x8ebc789f036fc30792003b, 120005), (0x8657081d306f9003b, 968), (0xa122c456d7912ff56bf381d30770003b, 8200),
  (0x878a173260792003b, 120110), (0x9002b8df197c2e07b4003b, 10764), (0x9002b9523f7e7006c6003b, 120162),
  (0xa293134b840148f9df197b0d06b5003b, 8279), (0x9002b99f036fc30792003b, 120006),
  (0xdc239b9b5ffd39cfa825590b9099862812f53d0b1523f7c2e07a3003b, 8461),
  (0xacbc44f354f8a8944d57bdf197c2e07b4003b, 10774), (0x9902e561bbc925581d307b4003b, 63),
  (0xacbc44f354fe132878f3bb23472050781003b, 8799), (0x878a18415075f0074, 34), (0x9002b9c5657d4f07b4003b, 34),
  (0x9a5d864d688459180b20792003b, 8667), (0x9148f6df7180b20792003b, 8658),
  (0xa4035eb23f24d57b45917689072c003b, 10524), (0x9a5d8661cc9459180b20792003b, 10511),
  (0x9148f765c86d810792003b, 10596), (0x9148f945916fc306b5003b, 9765192497),
  (0xa4036167892f2b2bc56582f406b5003b, 341), (0x9a5d88d9ea87f2476890693003b, 8730),
  (0xb927d0f5e1e1205a7e850bbc78b234889907d6003b, 10675), (0x9148f945917c2e06d7003b, 10217),
  (0x9a5d88d9ea93f0e744706a4003b, 10642), (0x9a5d88d9ea93f0e744706b5003b, 10661),
  (0xa4036167893d2ff5b8b779ec06b5003b, 10217), (0x9148f945917f9107c5006f, 187),
  (0x9a5d88d9ea978a18415075f003b, 187), (0x9148f9459180b20792003b, 8594),
  (0xa4036167894248fa8bd26d810770003b, 10613), (0x9a5d88d9ea98bd280b20682003b, 8677),
  (0xae43977e01d66d8a348f958c2732607a3003b, 10528), (0x9a5d88d9ea98bd280b20693003b, 10547),
  (0xa4036167894248fa8bd2732607a3003b, 10526), (0xa4036167894248fa8bd27568071b003b, 8618),
  (0xa4036167894248fa8bd279ec0770003b, 8620), (0xa4036167894248fa8bd27e70072c003b, 10565),
  (0xae43977e01d66d8a348fa9f037689073d003b, 10612), (0xa4036167894248fa8bd282f4072c003b, 8611),
  (0x9a5d88d9ea98bd280b207e7003b, 8605), (0xa40361678944d57b45917689072c003b, 10522),
  (0x9a5d88d9ea9b2347689075f003b, 8758), (0xc4ba4e0540162050e44982dd9ab2ff5459179ec07a3003b, 8474),
  (0x9a5d88ee4e9459180b20792003b, 10509), (0x9a5d88ee4e958c280b2071b003b, 10099),
  (0xa403617d339348f945916fc306b5003b, 125), (0xa403617d339348f945916fc3071b003b, 93),
  (0x9a5d88ee4ea8bd278cb06b5003b, 10636), (0xae43979506cc7d89a5d339f0379ec06a4003b, 10638),
  (0xae43979506cc7d89a5d339f0379ec07c5003b, 10640), (0xa4036192ddce9ea98bd27d4f074e003b, 345),
  (0xa4036192ddd3b7ac7f247689072c003b, 343), (0x9a5d8902b2a92557689072c003b, 8969),
  (0x9148f96bf384150682003b, 125), (0x88bd26fc30809003b, 1088), (0x9148f97f246fc30671003b, 10551),
  (0xae4397c310b07daab716bcbe86d810792003b, 10601), (0x9a5d891716c78a18415075f003b, 8221)]

/-- part of `html5Table` -/
def html5Table15 : List (Nat × Nat) := [
  (0xa40361a8883402b9c5657d4f0792003b, 8221), (0x9148f97f2481d306e8003b, 8627), (0x9148f992556d81072c003b, 8476),
  (0xae4397da1597a893aa373df197c2e06b5003b, 8475), (0xb927d157b6f1231ce4dababc77459180b207b4003b, 8476),
  (0x9a5d892b7ac459179ec07a3003b, 8477), (0x9148f992556fc307b4003b, 9645), (0x80b206b50067, 174),
  (0x88bd2720506d7003b, 174), (0xa40361d3dccbd0b19f03756807b4003b, 10621),
  (0xa40361d3dccfa374523f7d4f0792003b, 8971), (0x88bd273260792003b, 120111), (0x9a5d8968a6f459180b206a4003b, 8641),
  (0x9a5d8968a6f459180b207c5003b, 8640), (0xa40361ff31639ea98bd28415072c003b, 10604), (0x88bd27568075f003b, 961),
  (0x9148f9cbe87d4f07d6003b, 1009), (0xd105f3c2771d89a0e78bdccc0029894248fa8bd27d4f07e7003b, 8594),
  (0x10a62a6ec880fdbc2d8b6e5aed800ef5642c395ab8c0475212c3ad57b45917689072c003b, 8611),
  (0x12cb95e710599e716f6a6794a62b33ee6a5886e6ef9b0d11349bbb1745e2f4d716c523f8657074e003b, 8641),
  (0x10a62a6ec880fdbc2d8b6e5aed8c235f26657311a8d74c3d4d9ac76373f0e84150770003b, 8640),
  (0x11b08d15b5090d97f06425409c6c3b1fedf3c85794708a02c21d66d8a348fa523f865707a3003b, 8644),
  (0x13f84f45815f385886610e0df0962ebf0ba0352ade930bd87ba4d8d7f3d462ac83fd7637523f7c2e07a3003b, 8652),
  (0x12cb95e710599e716f6a6794a63eaf26f5de8f623af6049a98c02c21d66d8a348fa523f865707a3003b, 8649),
  (0x11b08d15b5090d97f06425409c7910d36d07f06b2f8f0f0f88f83c894248fa8bd27d4f07e7003b, 8605),
  (0x11b08d15b5090d97f06425409c7ae6350e360e02b957b6f6e45b162d39d0b12bdd720507a3003b, 8908),
  (0x9148f9df197c2e06d7003b, 730), (0xebf7b82e888e58fdf524c9e824169d80560b48d9b2d57c9f0372050781003b, 8787),
  (0x9a5d89ba373459180b20792003b, 8644), (0x9a5d89ba373cbe86d810792003b, 8652), (0x88bd279ec073d003b, 8207),
  (0xa403626b850a7637c56581d307b4003b, 9137), (0xd105f430e8b81a3309886218b2642d2f9ea86bf3756806b5003b, 9137),
  (0x9a5d89e2ff62bdd768906a4003b, 10990), (0x9a5d89f763645917c2e06d7003b, 10221),
  (0x9a5d89f7636459180b20792003b, 8702), (0x9a5d89f763658c280b2071b003b, 10215),
  (0x9a5d89f763765706d810792003b, 10630), (0x9148fa523f7e7006c6003b, 120163),
  (0xa4036296d9adbc7818ac841507a3003b, 10798), (0xae4398c0474e02d39d0b12bdd720507a3003b, 10805),
  (0x9148fa65706d810792003b, 41), (0xa40362ac83eb9ea98bd2744707b4003b, 10644),
  (0xb927d264c10292c3d4d9a8a373df197c2e07b4003b, 10770), (0x9a5d8a348f9459180b20792003b, 8649),
  (0xa40362ed82de9ea978a18415075f003b, 8250), (0x9148fa9f036fc30792003b, 120007), (0x88bd281d306e8003b, 8625),
  (0x9148fa9f037f910682003b, 93), (0x9a5d8a48f3b78a18415075f003b, 8217),
  (0xa40362ed82f302b9c5657d4f0792003b, 8217), (0xa40363032d388a708bd2720506b5003b, 8908),
  (0xa40363032d39d0b12bdd720507a3003b, 8906), (0x9148fab23480b206f9003b, 9657),
  (0x9a5d8a5d57c8bd2768906b5003b, 8885), (0x9a5d8a5d57c8bd2768906c6003b, 9656),
  (0xb927d2c6961b376214dbc2a374b23480b206f9003b, 10702), (0xae43994a65078dac11bbccbe86d810792003b, 10600),
  (0x80b207f8003b, 8478), (0xa573b0c8892f2b2bc56582f406b5003b, 347), (0x9bb82dfe4ea78a18415075f003b, 8218),
  (0x81d30693003b, 8827), (0x89f036fc30495003b, 10932), (0x928f3a6bf36d810770003b, 10936),
  (0xa573b0f3ddce9ea98bd27d4f074e003b, 353), (0x9bb82e12b2a6bf3841506b5003b, 8829), (0x89f036fc306b5003b, 10928),
  (0xa573b0f3ddd3b7ac7f247689072c003b, 351), (0x9bb82e12b2adf1980b20693003b, 349),
  (0x928f3a6bf37c2e0495003b, 10934), (0x9bb82e12b2b3f0e6d810770003b, 10938),
  (0xa573b0f3dddf2ff69f037689073d003b, 8937), (0xbac79ac34d7bd5c3d4d9a8a373df197c2e07b4003b, 10771),
  (0x9bb82e12b2b9f037689073d003b, 8831), (0x89f036fc30809003b, 1089), (0x928f3a7f247d4f07b4003b, 8901),
  (0x9bb82e2716c523f82f40682003b, 8865), (0x9bb82e2716c523f82f406b5003b, 10854),
  (0x9bb82e3b7a9df7180b20792003b, 8664), (0xa573b11f32709ea98bd27568071b003b, 10533),
  (0x9bb82e3b7ac459180b20792003b, 8600), (0xafcaec312597a894248fa8bd27d4f07e7003b, 8600),
  (0x89f03720506930074, 167), (0x928f3a92556fc307b4003b, 167), (0x928f3a92557b0d06f9003b, 59),
  (0xa573b11f32878f3bebc76d810792003b, 10537), (0xbac79af4380c79012d8502d0b13f0e841507a3003b, 8726),
  (0x9bb82e3b7adb2347b0d074e003b, 8726), (0x928f3a9255877807b4003b, 10038), (0x89f0373260792003b, 120112),
  (0xa573b134dcd748fa523f8657074e003b, 8994), (0x9bb82e78a6f459180b20770003b, 9839),
  (0xa573b16031662b2acbe86fc30809003b, 1097), (0x928f3acbe86fc30809003b, 1096),
  (0xbac79b3d97d59a74b4d8a5d57c2bdd768906a4003b, 8739),
  (0xfcea3624c79d68eba34cab12f7179f1bcdff3d46167893aa37418ac7205072c003b, 8741), (0x81d306e80079, 173),
  (0x89f0375680809003b, 173), (0x9bb82e8d0b0b8b77b0d0671003b, 963), (0xa573b175dbbc442f2bdd6d8106c6003b, 962),
  (0xa573b175dbbc442f2bdd6d8107d6003b, 962), (0x89f037689073d003b, 8764),
  (0xa573b175dbc3e9b47f247d4f07b4003b, 10858), (0x928f3adf197b0d06b5003b, 8771),
  (0x9bb82e8d0b12bdd72050781003b, 8771), (0x928f3adf197b0d06d7003b, 10910), (0x9bb82e8d0b12bdd74470495003b, 10912),
  (0x928f3adf197b0d072c003b, 10909), (0x9bb82e8d0b12bdd79ec0495003b, 10911), (0x9bb82e8d0b12bdd7c2e06b5003b, 8774),
  (0xafcaec8d39802850bbc7818ac841507a3003b, 10788), (0xafcaec8d39802850e48f9459180b20792003b, 10610),
  (0x9bb82eca373459180b20792003b, 8592),
  (0xfcea36ca5edaf9e121a0e8c3a9534c6f4380c79012d8502d0b13f0e841507a3003b, 8726),
  (0xa573b1cc84f89ea99f0375680770003b, 10803), (0xbac79bb7e2226c5abf83eb9ea98bd281d3072c003b, 10724),
  (0x928f3b2bdd768906a4003b, 8739), (0x9bb82ede9b4df1979ec06b5003b, 8995), (0x89f037b0d07b4003b, 10922),
  (0x928f3b2bdd82f406b5003b, 10924)]

/-- part of `html5Table` -/
def html5Table16 : List (Nat × Nat) := [
  (0x9bb82ede9b5b234720507a3003b, 12170624512), (0xa573b1f7d9a0fdeeb2346fc30809003b, 1100),
  (0x89f037d4f072c003b, 47), (0x928f3b523f79ec0682003b, 10692), (0xa573b1f7d9a8a37358c26d810792003b, 9023),
  (0x928f3b523f7e7006c6003b, 120164), (0xa573b20d83eb9ea87f24720507a3003b, 9824),
  (0xc67415c1560bcdfdfb00a7032878f3bc565768907b4003b, 9824), (0x928f3b65706d810792003b, 8741),
  (0x9bb82f302b86bf36d810770003b, 8851), (0xa573b2232e3f2b2a45917e7007a3003b, 9861070336),
  (0x9bb82f302b86bf384150770003b, 8852), (0xa573b2232e3f2b2bc5657e7007a3003b, 9862184448),
  (0x9bb82f302b99f0384150682003b, 8847), (0xa573b2232e538f3bc5656ea206b5003b, 8849),
  (0xbac79c19b74c54b279d781e4ea9f03720507b4003b, 8847),
  (0xd2db573907ed2b9d7b8c49a36cdd82e3b7adb23472050781003b, 8849), (0x9bb82f302b99f0384150770003b, 8848),
  (0xa573b2232e538f3bc5657e7006b5003b, 8850), (0xbac79c19b74c54b279d793bc789f03720507b4003b, 8848),
  (0xd2db573907ed2b9d7b8c5dc7c42b82e3b7adb23472050781003b, 8850), (0x89f037f9107c5003b, 9633),
  (0xa573b2232e561bbc459180b206b5003b, 9633), (0xa573b2232e561bbc459180b206c6003b, 9642),
  (0x928f3b78a1841506c6003b, 9642), (0x9bb82f448f9459180b20792003b, 8594), (0x928f3b9f036fc30792003b, 120008),
  (0xa573b24e82e3b7adb2347b0d074e003b, 8726), (0xa573b24e82ede9b4df1979ec06b5003b, 8995),
  (0xa573b24e82f6d57b459180b206c6003b, 8902), (0x928f3bb2346d810792003b, 9734),
  (0x9bb82f6d57b459180b206c6003b, 9733),
  (0x11d8468e02b6d998fa29e1c04d49875ea564e4424c90b906b7c42b82e8d0b118ac7d4f074e003b, 1013),
  (0xe0090d049ae7151d4540054fb0f88f8d4317bd57c6570756806f9003b, 981), (0x9bb82f6d57c8bd27c2e07a3003b, 175),
  (0x89f0384150682003b, 8834), (0x928f3bc5656ea20495003b, 10949), (0xa573b279d781e4e97f247d4f07b4003b, 10941),
  (0x928f3bc5656ea206b5003b, 8838), (0xafcaeda174fa03382b7ac7f247d4f07b4003b, 10947),
  (0xafcaeda174fa0338ce9b5c56579ec07b4003b, 10945), (0x9bb82f81bbc58c27c2e0495003b, 10955),
  (0x9bb82f81bbc58c27c2e06b5003b, 8842), (0xafcaeda174fa03390bc7818ac841507a3003b, 10943),
  (0xafcaeda174fa0339348f9459180b20792003b, 10617), (0xa573b279d781e4ea9f03720507b4003b, 8834),
  (0xbac79c7b8c49a36cdd82e3b7adb23472050781003b, 8838), (0xc6741643450e3da3ab5b11f3288d57b92557f910781003b, 10949),
  (0xc6741643450e3da3ab5b11f3288d57c3f0e72050781003b, 8842),
  (0xd2db57a7795f217de610c3125b162d402ff592557f910781003b, 10955), (0xa573b279d781e4ea9f037689073d003b, 10951),
  (0xa573b279d781e4ea9f0384150682003b, 10965), (0xa573b279d781e4ea9f0384150770003b, 10963),
  (0x928f3bc5656fc30693003b, 8827), (0xd2db57a77960c145fb3d66411d3b83febc788bd27d4f07f8003b, 10936),
  (0xe0090d21f0f6cd5a5af13fb3d830750fad89ba375122972050781003b, 8829), (0xa573b279d7832b2a6bf372050781003b, 10928),
  (0xe0090d21f0f6cd5a5af150847621c1d3b83febc788bd27d4f07f8003b, 10938),
  (0xbac79c7b8c4b13bae3dddf2ff592557f910781003b, 10934), (0xbac79c7b8c4b13bae3dddf2ff69f037689073d003b, 8937),
  (0xafcaeda174fb5ddd12b2b9f037689073d003b, 8831), (0x89f038415073d003b, 8721), (0x928f3bc5657c2e06d7003b, 9834),
  (0x89f03841507700031, 185), (0x928f3bc5657e700341003b, 185), (0x89f03841507700032, 178),
  (0x928f3bc5657e700352003b, 178), (0x89f03841507700033, 179), (0x928f3bc5657e700363003b, 179),
  (0x89f0384150770003b, 8835), (0x928f3bc5657e700495003b, 10950), (0xa573b279d793bc777f247d4f07b4003b, 10942),
  (0xafcaeda1750cf83ef716c9f0384150682003b, 10968), (0x928f3bc5657e7006b5003b, 8839),
  (0xafcaeda1750cf83f0b7ac7f247d4f07b4003b, 10948), (0xafcaeda1750cf83f48a709f037d4f072c003b, 10185),
  (0xafcaeda1750cf83f48a709f0384150682003b, 10967), (0xafcaeda1750cf83f9a373459180b20792003b, 10619),
  (0xafcaeda1750cf83fae9b5c56579ec07b4003b, 10946), (0x9bb82f81bbd65707c2e0495003b, 10956),
  (0x9bb82f81bbd65707c2e06b5003b, 8843), (0xafcaeda1750cf83febc7818ac841507a3003b, 10944),
  (0xa573b279d793bc789f03720507b4003b, 8835), (0xbac79c7b8c5dc7c42b82e3b7adb23472050781003b, 8839),
  (0xc67416434523a4406e3b11f3288d57b92557f910781003b, 10950),
  (0xc67416434523a4406e3b11f3288d57c3f0e72050781003b, 8843),
  (0xd2db57a77975de84751ec3125b162d402ff592557f910781003b, 10956), (0xa573b279d793bc789f037689073d003b, 10952),
  (0xa573b279d793bc789f0384150682003b, 10964), (0xa573b279d793bc789f0384150770003b, 10966),
  (0x9bb82faa83bdf7180b20792003b, 8665), (0xa573b2a52c229ea98bd27568071b003b, 10534),
  (0x9bb82faa83e459180b20792003b, 8601), (0xafcaedcf7ee4c894248fa8bd27d4f07e7003b, 8601),
  (0xa573b2a52c332ff6ebc76d810792003b, 10538), (0x928f3c255a79ec06f90067, 223),
  (0x9bb82fe7b0218ac768906d7003b, 223), (0xa6e40029894248f9b8b7720507b4003b, 8982), (0x8b2346d8107c5003b, 964),
  (0x93d57b58c280b2071b003b, 9140), (0xa6e40054ddce9ea98bd27d4f074e003b, 357),
  (0xa6e40054ddd3b7ac7f247689072c003b, 355), (0x8b2346fc30809003b, 1090), (0x93d57b7f247d4f07b4003b, 8411),
  (0xa6e40080327ea3748bd272050693003b, 8981), (0x8b23473260792003b, 120113),
  (0xa6e400c13168b7ad8bd272050374003b, 8756), (0xc82ddb27ba53aad099861be3276fdee523f80b206b5003b, 8756),
  (0x9d12d388a6f925582f40671003b, 952), (0xbc6764da18c7375b162d2f9ea99f038899073d003b, 977),
  (0xa6e400c13168b7adb2346d8107d6003b, 977), (0xe1fbc467d95f5aecd0a7abee791c91d3b83febc788bd27d4f07f8003b, 8776),
  (0xbc6764da18ccf89729dddb5d339f037689073d003b, 8764), (0xa6e400c1316dd0b13f0e81d30770003b, 8201),
  (0x9d12d388a70057b6d810770003b, 8776), (0xa6e400c131705d339f037689073d003b, 8764),
  (0x93d57bcbe87d4f0792006e, 254), (0x9d12d388a70523f80b2074e003b, 254), (0x9d12d39d0b118ac70e406b5003b, 732),
  (0x93d57bdf197b0d06b50073, 215)]

/-- part of `html5Table` -/
def html5Table17 : List (Nat × Nat) := [
  (0x9d12d39d0b12bdd720507a3003b, 215), (0xa6e400d6dbc3e9b4925581d30682003b, 8864),
  (0xbc6764f28e182ad4d932878f3a58c26d810792003b, 10801), (0xa6e400d6dbc3e9b4925581d306a4003b, 10800),
  (0x93d57bdf197c2e07b4003b, 8749), (0x93d57c523f72050671003b, 10536), (0x8b2347d4f0770003b, 8868),
  (0xa6e40158d9adbc7758c27d4f07b4003b, 9014), (0xa6e40158d9adbc776bf376890792003b, 10993),
  (0x93d57c523f7e7006c6003b, 120165), (0xb152416e6748983f1fdee523f80b2071b003b, 10970),
  (0x93d57c523f81d30671003b, 10537), (0xa6e4016e840148f9df197b0d06b5003b, 8244),
  (0x9d12d4548f9459170e406b5003b, 8482), (0xbc6765cead836296fe893d2ff5b8b779ec06b5003b, 9653),
  (0xf01b81e60a6f5de8507964c39c169d8bd885783274716c523f8657074e003b, 9663),
  (0xf01b81e60a6f5de8507964c39c169d8bd88578327ea3739255732607b4003b, 9667),
  (0x10f0f0da4b1c7b90342d90ac0d33587dadf6eacb100f685783276fdeeb23472050781003b, 8884),
  (0xc82ddc2b985b98c06e71d102f51442f18ac72050781003b, 8796),
  (0xff1d3a046b1653c6d580fb0fd5d80764960dcfb5aead897d0b0b8b7756807b4003b, 9657),
  (0x11ffffe7efce4349377069b6ce068e0588d65977c1a31e83629780871b8a70b23472050781003b, 8885),
  (0xa6e40199d897d0b07f247d4f07b4003b, 9708), (0x93d57c8bd2768906b5003b, 8796),
  (0xbc6765cead836298028502d0b13f0e841507a3003b, 10810), (0xb15241b376214dbc7bc7818ac841507a3003b, 10809),
  (0x9d12d4548f9df1981d30682003b, 10701), (0xb15241b376214dbccd57bdf197b0d06b5003b, 10811),
  (0xbc6765cead8d74c2fc32907b01df198415073d003b, 9186), (0x93d57c9f036fc30792003b, 120009),
  (0x93d57c9f036fc30809003b, 1094), (0x9d12d468f3acbe86fc30809003b, 1115),
  (0xa6e401af82f6d57c8bd27d4f071b003b, 359), (0x9d12d4ba83edf19877807b4003b, 8812),
  (0x131ffff2d8b997c84c072891d0930baed66f9becd7677c07d9f51ea0029894248fa8bd27d4f07e7003b, 8606),
  (0x1451fff206453144d0c79b1aed9c3c69c3d6a0abf4e6771d89a0e78bdccc0029894248fa8bd27d4f07e7003b, 8608),
  (0x951bb9df7180b20792003b, 8657), (0x951bba65c86d810792003b, 10595), (0x9e6d7809ea86bf3841507b40065, 250),
  (0xa8544f8a892f2b2bc56582f406b5003b, 250), (0x951bbc459180b20792003b, 8593),
  (0x9e6d781e4ea8bd26fc30809003b, 1118), (0xa8544fa0339348f99255853606b5003b, 365),
  (0x951bbc6bf3768907920063, 251), (0x9e6d7832b2adf1980b20693003b, 251), (0x8c5656fc30809003b, 1091),
  (0x9e6d784716b459180b20792003b, 8645), (0xa8544fcb8820e4ea18ac6d810693003b, 369),
  (0x9e6d784716bcbe86d810792003b, 10606), (0xa8544ff6dccbd0b19f03756807b4003b, 10622),
  (0x8c56573260792003b, 120114), (0x9e6d788442f8bd26d8107d60065, 249), (0xa854500c872848f94591853606b5003b, 249),
  (0x9e6d7898a6f459180b2072c003b, 8639), (0x9e6d7898a6f459180b20792003b, 8638),
  (0x9e6d7898a6f58c279ec071b003b, 9600), (0xa8545078daaa2b2b523f80b2074e003b, 8988),
  (0xbe072ed86eda1abbe7d9b048fa3f0e72050792003b, 8988), (0xa8545078daaa2b2b8bd27d4f0770003b, 8975),
  (0x9e6d78ea374b23480b206f9003b, 9720), (0x9e6d78fe9b445916fc30792003b, 363), (0x8415073d006c, 168),
  (0x8c5657b0d072c003b, 168), (0x9e6d7927636b8b77d4f074e003b, 371), (0x951bbd523f7e7006c6003b, 120166),
  (0xb2d995dc7c2a5894248fa8bd27d4f07e7003b, 8593),
  (0xe3ee7e15d31ea0df7911a3a72e5c923e3894248fa8bd27d4f07e7003b, 8597),
  (0x101503c56a35d5e7dba1886e6ef9b0d11349bbb1745e2f57a3739255732607b4003b, 8639),
  (0x11165401c0d93346595ba0f555e94bde247e576c8ba412553d897d0b0b8b7756807b4003b, 8638),
  (0x9e6d793bc7818ac841507a3003b, 8846), (0x951bbd657081d306f9003b, 965), (0x9e6d793bc789f03768906e8003b, 978),
  (0xb2d995dc7c42b82e8d0b118ac7d4f074e003b, 965), (0xd6861c50c6cf069f3a43ecfe1d66d8a348fa523f865707a3003b, 8648),
  (0xa85450fad8902b2b523f80b2074e003b, 8989), (0xbe072f6b2e7ac0bbe7d9b048fa3f0e72050792003b, 8989),
  (0xa85450fad8902b2b8bd27d4f0770003b, 8974), (0x9e6d79648f9df197c2e06d7003b, 367),
  (0x9e6d79648fab23480b206f9003b, 9721), (0x951bbd9f036fc30792003b, 120010), (0x9e6d798d57b7f247d4f07b4003b, 8944),
  (0xa85451262d39d0b118ac70e406b5003b, 361), (0x951bbdb23480b206f9003b, 9653),
  (0x9e6d798d57c8bd2768906c6003b, 9652), (0x9e6d79a1bbc459180b20792003b, 8648), (0x8c5658415073d006c, 252),
  (0x951bbdc5657b0d072c003b, 252), (0xb2d9967d9ee4c893d2ff5b8b779ec06b5003b, 10663),
  (0x9661fadf7180b20792003b, 8661), (0x9661faf2a26d810792003b, 10984), (0x9fc81aa1cc9459180b207d6003b, 10985),
  (0x9fc81aca94b459181d306e8003b, 8872), (0xa9c49eeb893d2ff5b8b780b207b4003b, 10652),
  (0xd85b7d4c4a9842c257b706b7c42b82e8d0b118ac7d4f074e003b, 1013),
  (0xbfa6f767e5f3d4624030569ea965707e700671003b, 1008),
  (0xd85b7d4c4a9842c333d6764074e02d388a6fdf197c2e06d7003b, 8709), (0xa9c49eeb894248fa6570756806f9003b, 981),
  (0x9fc81d19ea98bd27e7006f9003b, 982), (0xcba166de645311a8d74c415d89f7637657082f4075f003b, 8733),
  (0x9661fd459180b20792003b, 8597), (0xa9c49eeb894248fa8bd27568075f003b, 1009),
  (0xbfa6f767e5f3d462ed82e8d0b0b8b77b0d0671003b, 962),
  (0xf43f48732035e35ee793163450e3da3ab5b11f3288d57c3f0e72050781003b, 9851043328),
  (0x103833cfa52394194d60c479795f217de610c3125b162d402ff592557f910781003b, 12205161984),
  (0xf43f48732035e35ee7931634523a4406e3b11f3288d57c3f0e72050781003b, 9852157440),
  (0x103833cfa52394194d60c4797975de84751ec3125b162d402ff592557f910781003b, 12206276096),
  (0xbfa6f767e5f3d463032d388a6f925582f40671003b, 977),
  (0x124f727d696d2a30926c21bf1c6f5de8507964c39c169d8bd88578327ea3739255732607b4003b, 8882),
  (0x137469a54003fcd39b92e3db0e3653c6d580fb0fd5d80764960dcfb5aead897d0b0b8b7756807b4003b, 8883),
  (0x8d8966fc30809003b, 1074), (0x9fc81d5716b459181d306e8003b, 8866), (0x8d896720506b5003b, 8744),
  (0xa9c49f423275b7ac58c26d810792003b, 8891), (0x9fc81d6b7ac925572050781003b, 8794),
  (0xa9c49f42327ea37418ac76890770003b, 8942), (0xa9c49f42328648f958c26d810792003b, 124),
  (0x9661fd925580b207b4003b, 124), (0x8d89673260792003b, 120115), (0x9fc81dfa374b23480b206f9003b, 8882),
  (0x9fc81e22ff69f0384150682003b, 9842073810), (0x9fc81e22ff69f0384150770003b, 9843187922)]

/-- part of `html5Table` -/
def html5Table18 : List (Nat × Nat) := [
  (0x9661fe523f7e7006c6003b, 120167), (0x9fc81e4bc788bd27d4f0770003b, 8733), (0x9fc81e748fab23480b206f9003b, 8883),
  (0x9661fe9f036fc30792003b, 120011), (0xa9c4a07182f81bbc58c27c2e0495003b, 12205161984),
  (0xa9c4a07182f81bbc58c27c2e06b5003b, 9851043328), (0xa9c4a07182f81bbd65707c2e0495003b, 12206276096),
  (0xa9c4a07182f81bbd65707c2e06b5003b, 9852157440), (0xb460eb19bdd1cdbbc4430255a6d8106d7003b, 10650),
  (0xa122c252b2adf1980b20693003b, 373), (0xab34eea33274716b58c26d810792003b, 10847),
  (0xa122c27b7ac7f24744706b5003b, 8743), (0xab34eea33274716bb8b772050781003b, 8793),
  (0xab34eea3327ad0b0925580b20770003b, 8472), (0x8ebc773260792003b, 120116), (0x97a83f523f7e7006c6003b, 120168),
  (0x86570770003b, 8472), (0x86570792003b, 8768), (0xab34efbcd892b7ac459182f406e8003b, 8768),
  (0x97a83f9f036fc30792003b, 120012), (0x98ee7f6bf36d810770003b, 8898), (0xa27d6762b2adf1980b20693003b, 9711),
  (0x98ee7f6bf384150770003b, 8899), (0xa27d677716cb23480b206f9003b, 9661), (0x8fef873260792003b, 120117),
  (0xa27d67c8a6cdf7180b20792003b, 10234), (0xa27d67c8a6f459180b20792003b, 10231), (0x877806f9003b, 958),
  (0xa27d681a370df7180b20792003b, 10232), (0xa27d681a373459180b20792003b, 10229),
  (0x98ee802bdd6d810770003b, 10236), (0x98ee803f0e768907a3003b, 8955), (0xa27d68576367f247d4f07b4003b, 10752),
  (0x98ee80523f7e7006c6003b, 120169), (0xaca53edcd9adbc7818ac841507a3003b, 10753),
  (0xaca53edcd9b2d57bdf197b0d06b5003b, 10754), (0xa27d68948f6df7180b20792003b, 10233),
  (0xa27d68948f9459180b20792003b, 10230), (0x98ee809f036fc30792003b, 120013),
  (0xaca53f3382f302b86bf384150770003b, 10758), (0xaca53f5ed793bc7818ac841507a3003b, 10756),
  (0xa27d68d1bbdb23480b206f9003b, 9651), (0x98ee80d896720506b5003b, 8897),
  (0xaca53f8a2c27b7ac7f24744706b5003b, 8896), (0xa3d80c49ea86bf3841507b40065, 253),
  (0xae158d0e892f2b2bc56582f406b5003b, 253), (0x9a34c045916fc30809003b, 1103),
  (0xa3d80c72b2adf1980b20693003b, 375), (0x912296fc30809003b, 1099), (0x889906b5006e, 165),
  (0x912297205074e003b, 165), (0x9122973260792003b, 120118), (0x9a34c0df196fc30809003b, 1111),
  (0x9a34c1523f7e7006c6003b, 120170), (0x9a34c19f036fc30792003b, 120014), (0x9a34c1c5656fc30809003b, 1102),
  (0x912298415073d006c, 255), (0x9a34c1c5657b0d072c003b, 255), (0xaf85dc6f892f2b2bc56582f406b5003b, 378),
  (0xaf85dc9addce9ea98bd27d4f074e003b, 382), (0x9255a6fc30809003b, 1079), (0x9b7b017f247d4f07b4003b, 380),
  (0xaf85dcc63275b7adb23480b206c6003b, 8488), (0x9b7b01925582f40671003b, 950), (0x9255a73260792003b, 120119),
  (0x9b7b01cbe86fc30809003b, 1078), (0xba7e3aeea9780872848f9459180b20792003b, 8669),
  (0x9b7b02523f7e7006c6003b, 120171), (0x9b7b029f036fc30792003b, 120015), (0x9255a8657070a003b, 8205),
  (0x9b7b02ebc77c2e070a003b, 8204)]

/-- `html.entities.html5`; some names end with `;` -/
def html5Table : List (Nat × Nat) :=
  html5Table0 ++ html5Table1 ++ html5Table2 ++ html5Table3 ++ html5Table4 ++ html5Table5 ++
  html5Table6 ++ html5Table7 ++ html5Table8 ++ html5Table9 ++ html5Table10 ++ html5Table11 ++
  html5Table12 ++ html5Table13 ++ html5Table14 ++ html5Table15 ++ html5Table16 ++ html5Table17 ++
  html5Table18

/-- `html._invalid_charrefs` -/
def invalidCharrefs : List (Nat × Nat) := [
  (0, 65533), (13, 13), (128, 8364), (129, 129), (130, 8218), (131, 402), (132, 8222), (133, 8230),
  (134, 8224), (135, 8225), (136, 710), (137, 8240), (138, 352), (139, 8249), (140, 338), (141, 141),
  (142, 381), (143, 143), (144, 144), (145, 8216), (146, 8217), (147, 8220), (148, 8221), (149, 8226),
  (150, 8211), (151, 8212), (152, 732), (153, 8482), (154, 353), (155, 8250), (156, 339), (157, 157),
  (158, 382), (159, 376)]

/-- `html._invalid_codepoints`, as ranges -/
def invalidCodepoints : List (Nat × Nat) := [
  (1, 8), (11, 11), (14, 31), (127, 159), (64976, 65007), (65534, 65535),
  (131070, 131071), (196606, 196607), (262142, 262143), (327678, 327679), (393214, 393215), (458750, 458751),
  (524286, 524287), (589822, 589823), (655358, 655359), (720894, 720895), (786430, 786431), (851966, 851967),
  (917502, 917503), (983038, 983039), (1048574, 1048575), (1114110, 1114111)]

end Verif.Html
